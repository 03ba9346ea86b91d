import Verif.Spec.Concat

/-! # Entries of the dictionary and their words -/

namespace Thpronun.Spec

/-- The pronunciation `str`, begun at the node `n`, leads from `a` to `b` by the syllable `x`. -/
def StepOf (n : Int) : List Syl → Int → Int → Syl → Prop
  | [], _, _, _ => False
  | y :: ys, a, b, x => (a = n ∧ b = y.endPos ∧ ceq y x = true) ∨ StepOf y.endPos ys a b x

/-- One of the pronunciations does. -/
def StepOfOne (strs : List (List Syl)) (a b : Int) (x : Syl) : Prop := ∃ str ∈ strs, StepOf 0 str a b x

end Thpronun.Spec
