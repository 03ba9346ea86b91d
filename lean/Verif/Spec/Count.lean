import Verif.Spec.Reading

/-! # Syllables and characters -/

namespace Thpronun.Spec

/-- How many characters of the text have been begun before a node: a pre-syllable has begun one more than lie before
it. -/
def begun (n : Int) : Int := if n < 0 then (-n) / 101 + 1 else n

/-- Every syllable begins a character of its own, from the node `n` on. -/
def Paced (n : Int) : List Syl → Prop
  | [] => True
  | s :: ss => begun n < begun s.endPos ∧ Paced s.endPos ss

instance decPaced : (n : Int) → (s : List Syl) → Decidable (Paced n s)
  | _, [] => inferInstanceAs (Decidable True)
  | n, s :: ss =>
    have := decPaced s.endPos ss
    inferInstanceAs (Decidable (begun n < begun s.endPos ∧ Paced s.endPos ss))

/-- All readings of the dictionary are such. -/
def PacedLook (look : List Nat → Option Str) : Prop :=
  ∀ v data strs, look v = some data → DataIs data strs → ∀ str ∈ strs, Paced 0 str

end Thpronun.Spec
