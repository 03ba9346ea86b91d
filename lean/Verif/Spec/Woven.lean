import Verif.Spec.Dag

/-! # Pronunciations that can be put together from pieces of others -/

namespace Thpronun.Spec

/-- Some string of `l` has the syllable `x` from `u` to `v`. -/
def StepIn (l : List (List Syl)) (u v : Int) (x : Syl) : Prop := ∃ s ∈ l, StringEdge s u v x

/-- Syllables of strings of `l` that follow one another from `n` on, up to a position where no string goes on. -/
inductive Woven (l : List (List Syl)) : Int → List Syl → Prop
  | last {n m : Int} {x : Syl} : StepIn l n m x → (∀ m' y, ¬ StepIn l m m' y) → Woven l n [x]
  | step {n m : Int} {x : Syl} {s : List Syl} : StepIn l n m x → Woven l m s → Woven l n (x :: s)

end Thpronun.Spec
