/-! # A pool of states as one stack of flags for each position -/

namespace Thpronun.Spec

/-- What is done with a pool: a state with a position and a flag is added, or the first state is taken off. -/
inductive PoolOp
  | add (pos : Nat) (linked : Bool)
  | pop

/-- A flag is laid on a stack, unless it is there already, on top. -/
def lay (f : Bool) : List Bool → List Bool
  | [] => [f]
  | g :: r => if f = g then g :: r else f :: g :: r

/-- `Stacked ops st`: after `ops`, the stack of the flags at position `p` is `st p`. A state is taken off the stack of the least
position that has one; `pop` does nothing if there is none. -/
inductive Stacked : List PoolOp → (Nat → List Bool) → Prop
  | nil : Stacked [] fun _ => []
  | add {ops st} (p f) : Stacked ops st → Stacked (ops ++ [.add p f]) fun q => if q = p then lay f (st p) else st q
  | pop {ops st p f r} : Stacked ops st → st p = f :: r → (∀ q, q < p → st q = []) →
      Stacked (ops ++ [.pop]) fun q => if q = p then r else st q
  | idle {ops st} : Stacked ops st → (∀ q, st q = []) → Stacked (ops ++ [.pop]) st

end Thpronun.Spec
