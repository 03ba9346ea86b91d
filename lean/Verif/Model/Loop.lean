import Verif.Model.Basic

/-! # Unbounded loops

`while` loops whose termination is a theorem, not a definition: iterate a step function; the loop
diverges iff no number of iterations finishes it. -/

namespace Thpronun

/-- At most `n` iterations of the loop body; `inl` is "go on", `inr` is "left the loop". -/
def iterLoop {σ α} (step : σ → Res (σ ⊕ α)) : Nat → σ → Res α
  | 0, _ => .diverge
  | n + 1, s =>
    match step s with
    | .ok (.inl s') => iterLoop step n s'
    | .ok (.inr a) => .ok a
    | .throw e => .throw e
    | .ub => .ub
    | .diverge => .diverge

open Classical in
/-- The loop: the outcome of any number of iterations that suffices, else divergence. -/
noncomputable def whileLoop {σ α} (step : σ → Res (σ ⊕ α)) (s : σ) : Res α :=
  if h : ∃ n, iterLoop step n s ≠ .diverge then iterLoop step (Classical.choose h) s else .diverge

end Thpronun
