import Verif.Props.States
import Verif.Spec.PoolShape

/-! # C45: exactly what is in the state pool -/

namespace Thpronun
open Res Spec DAG

/-- C45: what `add` does to a pool sorted by position (`C45_min`): the new state is compared with the first state of its position
only; if their flags are the same, its edges are added to that state, otherwise it is put before it. -/
theorem C45_add {a b : StatePool} {s : PState} (ha : ∀ x ∈ a, x.pos < s.pos) (hb : ∀ x ∈ b, s.pos ≤ x.pos) :
    StatePool.add (a ++ b) s = a ++ match b with
      | [] => [s]
      | x :: r => if x.pos = s.pos ∧ x.linked = s.linked then { x with dag := x.dag.unionDAG s.dag } :: r else s :: x :: r := by
  induction a with
  | nil =>
    cases b with
    | nil => rfl
    | cons x r =>
      rw [List.nil_append, List.nil_append, StatePool.add, if_pos (hb x (by simp) : x.pos ≥ s.pos)]
  | cons y a ih =>
    have h := ha y (by simp)
    rw [List.cons_append, StatePool.add, if_neg (by omega), if_neg (by omega), ih fun x hx => ha x (by simp [hx]), List.cons_append]

/-- The flags of the states at a position, first state first. -/
def flagsAt (l : StatePool) (p : Nat) : List Bool := (l.filter fun x => x.pos = p).map PState.linked

private theorem split_at (l : StatePool) (h : l.Pairwise fun a b => a.pos ≤ b.pos) (n : Nat) :
    ∃ a b, l = a ++ b ∧ (∀ x ∈ a, x.pos < n) ∧ ∀ x ∈ b, n ≤ x.pos := by
  induction l with
  | nil => exact ⟨[], [], rfl, by simp, by simp⟩
  | cons x l ih =>
    obtain ⟨h1, h2⟩ := List.pairwise_cons.mp h
    by_cases hx : x.pos < n
    · obtain ⟨a, b, rfl, ha, hb⟩ := ih h2
      exact ⟨x :: a, b, rfl, List.forall_mem_cons.mpr ⟨hx, ha⟩, hb⟩
    · exact ⟨[], x :: l, rfl, by simp, List.forall_mem_cons.mpr ⟨by omega, fun y hy => by have := h1 y hy; omega⟩⟩

private theorem flags_append (a b : StatePool) (p : Nat) : flagsAt (a ++ b) p = flagsAt a p ++ flagsAt b p := by
  simp [flagsAt]

private theorem flags_none {a : StatePool} {p : Nat} (h : ∀ x ∈ a, x.pos ≠ p) : flagsAt a p = [] := by
  unfold flagsAt
  rw [List.filter_eq_nil_iff.mpr (fun x hx => by simpa using h x hx), List.map_nil]

private theorem flags_cons (x : PState) (l : StatePool) (p : Nat) :
    flagsAt (x :: l) p = if p = x.pos then x.linked :: flagsAt l p else flagsAt l p := by
  unfold flagsAt
  by_cases h : x.pos = p
  · rw [List.filter_cons_of_pos (by simpa using h), if_pos h.symm, List.map_cons]
  · rw [List.filter_cons_of_neg (by simpa using h), if_neg (Ne.symm h)]

/-- C45: `add` lays the flag of the new state on the stack of its position. -/
theorem C45_lay {l : StatePool} (h : l.Pairwise fun a b => a.pos ≤ b.pos) (s : PState) (p : Nat) :
    flagsAt (StatePool.add l s) p = if p = s.pos then lay s.linked (flagsAt l s.pos) else flagsAt l p := by
  obtain ⟨a, b, rfl, ha, hb⟩ := split_at l h s.pos
  rw [C45_add ha hb, flags_append, flags_append, flags_append, flags_none (a := a) (p := s.pos) fun x hx => (ha x hx).ne, List.nil_append]
  by_cases hp : p = s.pos
  · subst hp
    rw [if_pos rfl, flags_none (a := a) fun x hx => (ha x hx).ne, List.nil_append]
    cases b with
    | nil => simp [flags_cons, flags_none, lay]
    | cons x r =>
      dsimp only
      rw [flags_cons x]
      by_cases hx : x.pos = s.pos
      · rw [if_pos hx.symm, lay]
        by_cases hl : x.linked = s.linked
        · rw [if_pos ⟨hx, hl⟩, if_pos hl.symm, flags_cons, if_pos hx.symm]
        · rw [if_neg (fun k => hl k.2), if_neg (fun k => hl k.symm), flags_cons, if_pos rfl, flags_cons, if_pos hx.symm]
      · rw [if_neg (fun k => hx k.1), if_neg (fun k => hx k.symm), flags_cons, if_pos rfl, flags_cons, if_neg (fun k => hx k.symm)]
        rw [flags_none (a := r)]
        · rfl
        · intro y hy
          have h1 := hb x (by simp)
          have h2 := (List.pairwise_cons.mp (List.pairwise_append.mp h).2.1).1 y hy
          omega
  · rw [if_neg hp]
    cases b with
    | nil => simp [flags_cons, hp]
    | cons x r =>
      dsimp only
      by_cases hx : x.pos = s.pos ∧ x.linked = s.linked
      · rw [if_pos hx, flags_cons, flags_cons]
      · rw [if_neg hx, flags_cons s, if_neg hp]

/-- What the operations do to a pool; the edges of the added states are as given. -/
def poolRun : List (Option PState) → StatePool → StatePool
  | [], l => l
  | some s :: r, l => poolRun r (StatePool.add l s)
  | none :: r, l => poolRun r l.tail

/-- The operation without the edges. -/
def opOf : Option PState → PoolOp
  | some s => .add s.pos s.linked
  | none => .pop

private theorem run_append (a b : List (Option PState)) (l : StatePool) : poolRun (a ++ b) l = poolRun b (poolRun a l) := by
  induction a generalizing l with
  | nil => rfl
  | cons o a ih => cases o <;> exact ih _

private theorem run_pool (ops : List (Option PState)) : Pool (fun _ => True) (poolRun ops []) := by
  induction ops using List.reverseRecOn with
  | nil => exact .empty
  | append_singleton ops o ih =>
    rw [run_append]
    cases o with
    | some s => exact .add s trivial ih
    | none =>
      show Pool _ (poolRun ops []).tail
      revert ih
      cases poolRun ops [] with
      | nil => exact id
      | cons x l => exact .pop

/-- C45, exactly: after any sequence of `add` and `pop` the pool is sorted by position, and the flags of the states at each position
are those of a stack on which the flags are laid. -/
theorem C45_exact (ops : List (Option PState)) :
    (poolRun ops []).Pairwise (fun a b => a.pos ≤ b.pos) ∧ Stacked (ops.map opOf) (flagsAt (poolRun ops [])) := by
  refine ⟨C45_min (run_pool ops), ?_⟩
  induction ops using List.reverseRecOn with
  | nil => exact .nil
  | append_singleton ops o ih =>
    have hs := C45_min (run_pool ops)
    rw [run_append, List.map_append, List.map_singleton]
    revert ih hs
    generalize poolRun ops [] = l
    intro ih hs
    cases o with
    | some s =>
      have h := Stacked.add s.pos s.linked ih
      rw [← funext fun p => C45_lay hs s p] at h
      exact h
    | none =>
      show Stacked _ (flagsAt l.tail)
      cases l with
      | nil => exact .idle ih fun _ => rfl
      | cons x l =>
        have h := Stacked.pop (p := x.pos) (f := x.linked) (r := flagsAt l x.pos) ih (by rw [flags_cons, if_pos rfl]) fun q hq =>
          flags_none fun y hy => by
            rcases List.mem_cons.mp hy with rfl | hy
            · omega
            · have := (List.pairwise_cons.mp hs).1 y hy; omega
        refine (congrArg (Stacked _) (funext fun q => ?_)).mp h
        rw [List.tail_cons]
        by_cases hq : q = x.pos
        · rw [if_pos hq, hq]
        · rw [if_neg hq, flags_cons, if_neg hq]

/-- Two neighbours on such a stack are different. -/
theorem stacked_alternate {ops : List PoolOp} {st : Nat → List Bool} (h : Stacked ops st) (p : Nat) : (st p).IsChain (· ≠ ·) := by
  induction h with
  | nil => exact .nil
  | @add ops st q f _ ih =>
    dsimp only
    by_cases hp : p = q
    · subst hp
      rw [if_pos rfl]
      cases hl : st p with
      | nil => exact .singleton _
      | cons g r =>
        rw [hl] at ih
        rw [lay]
        by_cases hf : f = g
        · rw [if_pos hf]; exact ih
        · rw [if_neg hf]; exact .cons_cons hf ih
    · rw [if_neg hp]; exact ih
  | @pop ops st q f r _ hq _ ih =>
    dsimp only
    by_cases hp : p = q
    · subst hp
      rw [if_pos rfl]
      rw [hq] at ih
      exact ih.tail
    · rw [if_neg hp]; exact ih
  | idle _ _ ih => exact ih

/-- C45: so two states next to each other with the same position have different flags, whatever was done before, and with `C45_exact`
there are two states with the same position and flag exactly if there are three states with that position. -/
theorem C45_alternate (ops : List (Option PState)) (p : Nat) : (flagsAt (poolRun ops []) p).IsChain (· ≠ ·) :=
  stacked_alternate (C45_exact ops).2 p

/-- C45: there is at most one state for each position and flag exactly if there are at most two states for each position. -/
theorem C45_unique (ops : List (Option PState)) (p : Nat) :
    (flagsAt (poolRun ops []) p).Nodup ↔ (flagsAt (poolRun ops []) p).length ≤ 2 := by
  have h := C45_alternate ops p
  revert h
  generalize flagsAt (poolRun ops []) p = l
  intro h
  match l, h with
  | [], _ => simp
  | [a], _ => simp
  | [a, b], h =>
    have hab : a ≠ b := by simpa using h
    simp [hab]
  | a :: b :: c :: r, h =>
    have h1 : a ≠ b := by simp at h; exact h.1
    have h2 : b ≠ c := by simp at h; exact h.2.1
    have : a = c := by revert h1 h2; cases a <;> cases b <;> cases c <;> simp
    subst this
    simp

private def pst (f : Bool) : PState := ⟨5, 9, DAG.empty, f⟩

/-- Three states at one position. -/
example : flagsAt (poolRun [some (pst false), some (pst true), some (pst false)] []) 5 = [false, true, false] := by decide

/-- After a state is taken off, the flag of the next one counts. -/
example : flagsAt (poolRun [some (pst false), some (pst true), none, some (pst false)] []) 5 = [false] := by decide

end Thpronun
