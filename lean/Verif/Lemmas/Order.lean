import Verif.Spec.Order
import Verif.Lemmas.Paths

/-! # The order of edges: helper lemmas -/

namespace Thpronun
open Spec

section
variable {V : Type u}

theorem equalRange_emplace {l : List (Entry V)} (h : DAG.Sorted l) (e : Entry V) (k : Int) :
    DAG.equalRange (DAG.mmEmplace l e) k = DAG.equalRange l k ++ (if e.key = k then [e] else []) := by
  induction l with
  | nil => simp only [DAG.mmEmplace, DAG.equalRange, List.filter_cons, List.filter_nil]; simp
  | cons x xs ih =>
    obtain ⟨h1, h2⟩ := List.pairwise_cons.mp h
    have ih := ih h2
    unfold DAG.equalRange at ih ⊢
    unfold DAG.mmEmplace
    split
    · rw [List.filter_cons, List.filter_cons, ih]
      split <;> simp
    · rename_i hlt
      rw [List.filter_cons]
      by_cases hk : e.key = k
      · have hnil : (x :: xs).filter (fun y => decide (y.key = k)) = [] := by
          rw [List.filter_eq_nil_iff]
          intro y hy
          rcases List.mem_cons.mp hy with rfl | hy
          · simp; omega
          · have := h1 y hy
            simp; omega
        rw [hnil]
        simp [hk]
      · simp [hk]

variable [CppEq V]

theorem shows_has {d : DAG V} {l : List (Int × Int × V)} (h : Shows d l) (u v : Int) (x : V) :
    d.isEdgeExist u v x = has l u v x := by
  show ((d.outEdges u).any _) = _
  rw [h.1 u, List.any_map, List.any_filter]
  unfold has
  congr 1
  funext e
  simp [DAG.isMatch, Bool.and_assoc]

omit [CppEq V] in
theorem shows_filter {d : DAG V} {l : List (Int × Int × V)} (h : Shows d l) (p : Entry V → Bool) :
    Shows ⟨d.mFrom.filter p, d.mTo.filter fun e => p (DAG.Entry.swap e)⟩
      (l.filter fun e => p ⟨e.1, e.2.1, e.2.2⟩) := by
  have hc : ∀ (m : List (Entry V)) (q : Entry V → Bool) (n : Int),
      DAG.equalRange (m.filter q) n = (DAG.equalRange m n).filter q := by
    intro m q n
    unfold DAG.equalRange
    rw [List.filter_filter, List.filter_filter]
    congr 1
    funext e
    rw [Bool.and_comm]
  constructor
  · intro n
    show DAG.equalRange (d.mFrom.filter p) n = _
    rw [hc]
    have := h.1 n
    unfold DAG.outEdges at this
    rw [this, List.filter_map, List.filter_filter, List.filter_filter]
    congr 2
    funext e
    rw [Bool.and_comm]; rfl
  · intro n
    show DAG.equalRange (d.mTo.filter _) n = _
    rw [hc]
    have := h.2 n
    unfold DAG.inEdges at this
    rw [this, List.filter_map, List.filter_filter, List.filter_filter]
    congr 2
    funext e
    rw [Bool.and_comm]; rfl

end

theorem pairwise_before {α : Type u} (l : List α) : l.Pairwise (Before l) := by
  suffices h : ∀ (p m : List α), l = p ++ m → m.Pairwise (Before l) from h [] l rfl
  intro p m
  induction m generalizing p with
  | nil => intro _; exact .nil
  | cons a m ih =>
    intro hl
    refine List.pairwise_cons.mpr ⟨fun b hb => ⟨p ++ [a], m, by simp [hl], by simp, hb⟩, ih (p ++ [a]) (by simp [hl])⟩

theorem walk_order {V : Type u} (d : DAG V) (fuel : Nat) (n : Int) (ps : List (List (Entry V)))
    (h : DAG.walk d fuel n = .ok ps) : ps.Pairwise (PathBefore d) := by
  induction fuel generalizing n ps with
  | zero => simp [DAG.walk] at h
  | succ fuel ih =>
    rw [DAG.walk] at h
    have hex : ∃ c : Entry V → List (List (Entry V)), ∀ e ∈ d.outEdges n, DAG.walk d fuel e.target = .ok (c e) :=
      ⟨fun e => match DAG.walk d fuel e.target with | .ok c => c | _ => [], fun e he => by
        obtain ⟨b, hb⟩ := concatRes_inv h e he
        obtain ⟨c, hc, _⟩ := Res.bind_eq_ok.mp hb
        simp [hc]⟩
    obtain ⟨c, hc⟩ := hex
    have hg : ∀ e ∈ d.outEdges n, (do
        let child ← DAG.walk d fuel e.target
        if child.length = 0 then pure [[e]] else pure (child.map fun s => e :: s) : Res _) =
        .ok (if c e = [] then [[e]] else (c e).map fun s => e :: s) := fun e he => by
      rw [hc e he]
      by_cases h0 : c e = [] <;> simp [h0]
    rw [concatRes_ok hg] at h
    cases h
    have hmem : ∀ e p, p ∈ (if c e = [] then [[e]] else (c e).map fun s => e :: s) → ∃ p', p = e :: p' := by
      intro e p hp
      split at hp
      · exact ⟨[], List.mem_singleton.mp hp⟩
      · obtain ⟨q, -, rfl⟩ := List.mem_map.mp hp
        exact ⟨q, rfl⟩
    rw [List.pairwise_flatMap]
    constructor
    · intro e he
      split
      · simp
      · rw [List.pairwise_map]
        refine (ih _ _ (hc e he)).imp ?_
        rintro p q ⟨pre, a, b, p', q', rfl, rfl, hk, hb⟩
        exact ⟨e :: pre, a, b, p', q', rfl, rfl, hk, hb⟩
    · refine List.Pairwise.imp_of_mem ?_ (pairwise_before (d.outEdges n))
      intro e f he hf hb p hp q hq
      obtain ⟨p', rfl⟩ := hmem e p hp
      obtain ⟨q', rfl⟩ := hmem f q hq
      have ke := (DAG.mem_outEdges.mp he).2
      have kf := (DAG.mem_outEdges.mp hf).2
      exact ⟨[], e, f, p', q', rfl, rfl, by rw [ke, kf], by rw [ke]; exact hb⟩

end Thpronun
