import Verif.Lemmas.Order
import Verif.Props.Dag

/-! # The order of edges and pronunciations: C62 -/

namespace Thpronun
open Spec

section
variable {V : Type u}

variable [CppEq V] [LawfulCppEq V]

/-! ## C62 -/

omit [CppEq V] [LawfulCppEq V] in
/-- The empty DAG. -/
theorem C62_empty : Shows (DAG.empty : DAG V) [] := ⟨fun _ => rfl, fun _ => rfl⟩

/-- A new edge goes behind all others of its nodes; an edge that is there already changes nothing. -/
theorem C62_addEdge (d : DAG V) (hd : Built d) (l : List (Int × Int × V)) (h : Shows d l) (u v : Int) (x : V) :
    Shows (d.addEdge u v x).1 (added l u v x) ∧ (d.addEdge u v x).2 = !has l u v x := by
  unfold DAG.addEdge added
  rw [shows_has h]
  cases has l u v x with
  | true => exact ⟨h, rfl⟩
  | false =>
    obtain ⟨s1, s2⟩ := C13_sorted d hd
    refine ⟨⟨fun n => ?_, fun n => ?_⟩, rfl⟩
    · show DAG.equalRange (DAG.mmEmplace d.mFrom _) n = _
      rw [equalRange_emplace s1]
      have := h.1 n
      unfold DAG.outEdges at this
      rw [this]
      simp only [Bool.false_eq_true, if_false, List.filter_append, List.map_append, List.filter_cons, List.filter_nil]
      by_cases hn : u = n <;> simp [hn]
    · show DAG.equalRange (DAG.mmEmplace d.mTo _) n = _
      rw [equalRange_emplace s2]
      have := h.2 n
      unfold DAG.inEdges at this
      rw [this]
      simp only [Bool.false_eq_true, if_false, List.filter_append, List.map_append, List.filter_cons, List.filter_nil]
      by_cases hn : v = n <;> simp [hn]

/-- Removal keeps the order of the others. -/
theorem C62_removeEdge (d : DAG V) (hd : Built d) (l : List (Int × Int × V)) (h : Shows d l) (u v : Int) (x : V) :
    Shows (d.removeEdge u v x).1 (l.filter fun e => !(decide (e.1 = u) && decide (e.2.1 = v) && ceq e.2.2 x)) := by
  rw [DAG.removeEdge_eq (DAG.Coh.of_built hd)]
  have := shows_filter h fun e => !(decide (e.key = u) && DAG.isMatch v x e)
  simpa only [DAG.isMatch, Bool.and_assoc] using this

omit [CppEq V] [LawfulCppEq V] in
theorem C62_removeDirectEdges (d : DAG V) (l : List (Int × Int × V)) (h : Shows d l) (u v : Int) :
    Shows (d.removeDirectEdges u v).1 (l.filter fun e => !(decide (e.1 = u) && decide (e.2.1 = v))) := by
  rw [DAG.removeDirectEdges_eq]
  exact shows_filter h fun e => !(decide (e.key = u) && decide (e.target = v))

/-- A union adds the edges of the other DAG one by one, ordered by their source and then as they were added there. -/
theorem C62_unionDAG (d e : DAG V) (hd : Built d) (he : Built e) (l m : List (Int × Int × V)) (h : Shows d l)
    (h' : Shows e m) :
    ∃ m' : List (Int × Int × V), Shows (d.unionDAG e) (m'.foldl (fun acc x => added acc x.1 x.2.1 x.2.2) l) ∧
      (m'.Pairwise fun a b => a.1 ≤ b.1) ∧ ∀ n, (m'.filter fun x => x.1 = n) = m.filter fun x => x.1 = n := by
  refine ⟨e.mFrom.map fun x => (x.key, x.target, x.val), ?_, ?_, fun n => ?_⟩
  · unfold DAG.unionDAG
    rw [List.foldl_map]
    generalize e.mFrom = es
    induction es generalizing d l with
    | nil => exact h
    | cons x es ih => exact ih _ (.addEdge _ _ _ hd) _ (C62_addEdge d hd l h _ _ _).1
  · rw [List.pairwise_map]
    exact (C13_sorted e he).1
  · have := congrArg (List.map fun x : Entry V => (x.key, x.target, x.val)) (h'.1 n)
    rw [List.map_map] at this
    rw [List.filter_map]
    refine Eq.trans this ?_
    exact List.map_id _

/-- Every DAG a program can build shows some list of edges. -/
theorem C62_exists (d : DAG V) (hd : Built d) : ∃ l, Shows d l := by
  induction hd with
  | empty => exact ⟨[], C62_empty⟩
  | addEdge u v x hd ih => obtain ⟨l, h⟩ := ih; exact ⟨_, (C62_addEdge _ hd l h u v x).1⟩
  | removeEdge u v x hd ih => obtain ⟨l, h⟩ := ih; exact ⟨_, C62_removeEdge _ hd l h u v x⟩
  | removeDirectEdges u v hd ih => obtain ⟨l, h⟩ := ih; exact ⟨_, C62_removeDirectEdges _ l h u v⟩
  | unionDAG hd he ih ih' =>
    obtain ⟨l, h⟩ := ih
    obtain ⟨m, h'⟩ := ih'
    obtain ⟨m', hm, -⟩ := C62_unionDAG _ _ hd he l m h h'
    exact ⟨_, hm⟩

end

/-- The listing is depth first: of two pronunciations the one comes first that takes the earlier edge where they
part. With `C15_listing` this determines the listing. -/
theorem C62_listing (d : PronunDAG) (ha : Acyclic d) :
    ∃ ps : List (List (Entry Syl)), PronunDAG.sylStrings d 0 = .ok (ps.map fun p => p.map fun e => e.val) ∧
      (∀ p, p ∈ ps ↔ MaxPath d 0 p) ∧ ps.Pairwise (PathBefore d) := by
  obtain ⟨ps, hps⟩ := DAG.walk_acyclic ha 0
  obtain ⟨h1, _, _⟩ := DAG.walk_spec d _ 0 ps hps
  exact ⟨ps, by rw [PronunDAG.sylStrings_walk, hps]; rfl, h1, walk_order d _ 0 ps hps⟩

/-- The hypotheses: a DAG whose listing shows the order of adding, not that of the syllables. -/
example : ∃ d : PronunDAG, Built d ∧ Acyclic d ∧
    Shows d [(0, 1, ⟨.MA, SC.NONE, VW.A, .NONE, .EK, [], 1⟩), (0, 1, ⟨.KA, SC.NONE, VW.A, .NONE, .EK, [], 1⟩)] ∧
    PronunDAG.sylStrings d 0 = .ok [[⟨.MA, SC.NONE, VW.A, .NONE, .EK, [], 1⟩], [⟨.KA, SC.NONE, VW.A, .NONE, .EK, [], 1⟩]] := by
  refine ⟨_, .addEdge 0 1 ⟨.KA, SC.NONE, VW.A, .NONE, .EK, [], 1⟩ (.addEdge 0 1 ⟨.MA, SC.NONE, VW.A, .NONE, .EK, [], 1⟩
    .empty), acyclic_of_rank id (by decide), ?_, by decide⟩
  exact (C62_addEdge _ (.addEdge _ _ _ .empty) _ (C62_addEdge _ .empty _ C62_empty _ _ _).1 _ _ _).1

end Thpronun
