import Verif.Spec.Respell
import Verif.Spec.Concat

/-! # A printed line as a new text -/

namespace Thpronun.Spec

/-- The respellings of the syllables with hyphens between them. -/
def respelling : List Syl → U16Str
  | [] => []
  | [s] => respelled s
  | s :: r => respelled s ++ u!"-" ++ respelling r

/-- The syllables with the hyphens between them as other text. -/
def withHyphens : List Syl → List Syl
  | [] => []
  | [s] => [s]
  | s :: r => s :: plainText 0 u!"-" :: withHyphens r

/-- Equal syllables in the sense of `==`, wherever they end. -/
abbrev SameSounds : List Syl → List Syl → Prop := List.Forall₂ fun x y => ceq x y = true

end Thpronun.Spec
