import Verif.Lemmas.Paths

/-! # Properties C13–C16: the DAG and its listings -/

namespace Thpronun
open Spec

private def syl (e : Int) : Syl := ⟨.KA, SC.NONE, VW.A, .NONE, .EK, [], e⟩

/-- A sample history: a diamond with one edge removed again and a parallel edge. -/
private def sample : PronunDAG :=
  let d : PronunDAG := DAG.empty
  let d := (d.addEdge 0 2 (syl 2)).1
  let d := (d.addEdge 2 5 (syl 5)).1
  let d := (d.addEdge 0 3 (syl 3)).1
  let d := (d.addEdge 3 5 (syl 5)).1
  let d := (d.addEdge 0 5 (syl 5)).1
  let d := (d.addEdge 3 5 { syl 5 with tone := .THO }).1
  (d.removeEdge 0 5 (syl 5)).1

private theorem sample_built : Built sample :=
  .removeEdge _ _ _ (.addEdge _ _ _ (.addEdge _ _ _ (.addEdge _ _ _ (.addEdge _ _ _
    (.addEdge _ _ _ (.addEdge _ _ _ .empty))))))

section
variable {V : Type u} [CppEq V] [LawfulCppEq V]

/-! ## C13: the two views agree -/

/-- An edge is seen from its source iff it is seen from its target, with the same label; each is
seen the same number of times (once, by `C13_distinct`). -/
theorem C13_views (d : DAG V) (h : Built d) :
    (d.mTo.map fun e => (⟨e.target, e.key, e.val⟩ : Entry V)).Perm d.mFrom :=
  (DAG.Coh.of_built h).perm

/-- The views in terms of the two range queries. -/
theorem C13_ranges (d : DAG V) (h : Built d) (u v : Int) (x : V) :
    (⟨u, v, x⟩ : Entry V) ∈ d.outEdges u ↔ (⟨v, u, x⟩ : Entry V) ∈ d.inEdges v := by
  have := (DAG.Coh.of_built h).mem_swap (e := ⟨v, u, x⟩)
  simp only [DAG.mem_outEdges, DAG.mem_inEdges, and_true]
  exact this.symm

theorem C13_sorted (d : DAG V) (h : Built d) :
    (d.mFrom.Pairwise fun a b => a.key ≤ b.key) ∧ (d.mTo.Pairwise fun a b => a.key ≤ b.key) :=
  ⟨(DAG.Coh.of_built h).sortedFrom, (DAG.Coh.of_built h).sortedTo⟩

/-- No edge occurs twice in either view. -/
theorem C13_distinct (d : DAG V) (h : Built d) :
    (d.mFrom.Pairwise fun a b => ¬ (a.key = b.key ∧ a.target = b.target ∧ ceq a.val b.val = true)) ∧
    (d.mTo.Pairwise fun a b => ¬ (a.key = b.key ∧ a.target = b.target ∧ ceq a.val b.val = true)) :=
  ⟨(DAG.Coh.of_built h).distinct, (DAG.Coh.of_built h).distinctTo⟩

/-! ## C14: a set of edges -/

/-- `addEdge` reports whether the edge is new, and adds it to the set. -/
theorem C14_addEdge (d : DAG V) (u v : Int) (x : V) :
    ((d.addEdge u v x).2 = true ↔ ¬ Edge d u v x) ∧
    ∀ u' v' y, Edge (d.addEdge u v x).1 u' v' y ↔
      Edge d u' v' y ∨ (u' = u ∧ v' = v ∧ ceq x y = true) := by
  refine ⟨?_, fun u' v' y => DAG.edge_addEdge⟩
  rw [← DAG.isEdgeExist_edge]
  unfold DAG.addEdge
  split <;> simp_all

omit [LawfulCppEq V] in
/-- `isEdgeExist` decides membership. -/
theorem C14_isEdgeExist (d : DAG V) (u v : Int) (x : V) :
    d.isEdgeExist u v x = true ↔ Edge d u v x := DAG.isEdgeExist_edge

/-- `removeEdge` reports whether the edge was there, and removes it from the set. -/
theorem C14_removeEdge (d : DAG V) (h : Built d) (u v : Int) (x : V) :
    ((d.removeEdge u v x).2 = true ↔ Edge d u v x) ∧
    ∀ u' v' y, Edge (d.removeEdge u v x).1 u' v' y ↔
      Edge d u' v' y ∧ ¬ (u' = u ∧ v' = v ∧ ceq x y = true) := by
  have hc := DAG.Coh.of_built h
  refine ⟨?_, fun u' v' y => DAG.edge_removeEdge hc⟩
  have h1 : ((DAG.equalRange d.mFrom u).any (DAG.isMatch v x)) = true ↔ Edge d u v x :=
    DAG.isEdgeExist_edge
  have h2 : ((DAG.equalRange d.mTo v).any (DAG.isMatch u x)) = true ↔ Edge d u v x := by
    rw [← DAG.edgeIn_iff hc, List.any_eq_true]
    simp only [EdgeIn, DAG.isMatch_iff]
    rfl
  simp only [DAG.removeEdge, Bool.or_eq_true, h1, h2, or_self]

/-- `removeDirectEdges` removes exactly the edges between the two nodes, and reports whether there
were any. -/
theorem C14_removeDirectEdges (d : DAG V) (h : Built d) (u v : Int) :
    ((d.removeDirectEdges u v).2 = true ↔ ∃ x, Edge d u v x) ∧
    ∀ u' v' y, Edge (d.removeDirectEdges u v).1 u' v' y ↔ Edge d u' v' y ∧ ¬ (u' = u ∧ v' = v) := by
  have hc := DAG.Coh.of_built h
  refine ⟨?_, fun u' v' y => DAG.edge_removeDirectEdges⟩
  have h1 : ((DAG.equalRange d.mFrom u).any fun x => x.target = v) = true ↔ ∃ x, Edge d u v x := by
    rw [List.any_eq_true]
    simp only [decide_eq_true_eq]
    constructor
    · rintro ⟨e, he, ht⟩; exact ⟨e.val, e, he, ht, LawfulCppEq.refl _⟩
    · rintro ⟨x, e, he, ht, _⟩; exact ⟨e, he, ht⟩
  have h2 : ((DAG.equalRange d.mTo v).any fun x => x.target = u) = true ↔ ∃ x, Edge d u v x := by
    rw [List.any_eq_true]
    simp only [decide_eq_true_eq, ← DAG.edgeIn_iff hc]
    constructor
    · rintro ⟨e, he, ht⟩; exact ⟨e.val, e, he, ht, LawfulCppEq.refl _⟩
    · rintro ⟨x, e, he, ht, _⟩; exact ⟨e, he, ht⟩
  simp only [DAG.removeDirectEdges, Bool.or_eq_true, h1, h2, or_self]

theorem C14_unionDAG (d e : DAG V) (u v : Int) (x : V) :
    Edge (d.unionDAG e) u v x ↔ Edge d u v x ∨ Edge e u v x := DAG.edge_unionDAG

omit [CppEq V] [LawfulCppEq V] in
theorem C14_empty [CppEq V] (u v : Int) (x : V) : ¬ Edge (DAG.empty : DAG V) u v x := by
  simp [Edge, DAG.outEdges, DAG.equalRange, DAG.empty]

/-- `outDegree` is the number of edges of the set that leave the node: the length of any
duplicate-free listing of them (one exists). -/
theorem C14_outDegree (d : DAG V) (h : Built d) (u : Int) :
    (∃ l, Lists l fun v x => Edge d u v x) ∧
    ∀ l, (Lists l fun v x => Edge d u v x) → d.outDegree u = l.length := by
  have hc := DAG.Coh.of_built h
  have hl : Lists ((d.outEdges u).map fun e => (e.target, e.val)) fun v x => Edge d u v x := by
    refine ⟨fun v x => ?_, ?_⟩
    · simp [Edge]
    · rw [List.pairwise_map]
      refine List.Pairwise.imp_of_mem ?_ (hc.distinct.sublist List.filter_sublist)
      intro a b ha hb hab hs
      have ha := (DAG.mem_outEdges.mp ha).2
      have hb := (DAG.mem_outEdges.mp hb).2
      exact hab ⟨ha.trans hb.symm, hs⟩
  refine ⟨⟨_, hl⟩, fun l h' => ?_⟩
  have := le_antisymm (DAG.lists_length_le hl h') (DAG.lists_length_le h' hl)
  simpa [DAG.outDegree] using this

/-- `inDegree` is the number of edges of the set that enter the node. -/
theorem C14_inDegree (d : DAG V) (h : Built d) (v : Int) :
    (∃ l, Lists l fun u x => Edge d u v x) ∧
    ∀ l, (Lists l fun u x => Edge d u v x) → d.inDegree v = l.length := by
  have hc := DAG.Coh.of_built h
  have hl : Lists ((d.inEdges v).map fun e => (e.target, e.val)) fun u x => Edge d u v x := by
    refine ⟨fun u x => ?_, ?_⟩
    · rw [← DAG.edgeIn_iff hc]; simp [EdgeIn]
    · rw [List.pairwise_map]
      refine List.Pairwise.imp_of_mem ?_ (hc.distinctTo.sublist List.filter_sublist)
      intro a b ha hb hab hs
      have ha := (DAG.mem_inEdges.mp ha).2
      have hb := (DAG.mem_inEdges.mp hb).2
      exact hab ⟨ha.trans hb.symm, hs⟩
  refine ⟨⟨_, hl⟩, fun l h' => ?_⟩
  have := le_antisymm (DAG.lists_length_le hl h') (DAG.lists_length_le h' hl)
  simpa [DAG.inDegree] using this

end

example : Built sample ∧ sample.outDegree 0 = 2 ∧ sample.inDegree 5 = 3 ∧
    sample.isEdgeExist 0 5 (syl 5) = false ∧ sample.isEdgeExist 3 5 (syl 99) = true :=
  ⟨sample_built, by decide⟩

/-! ## C15: listing the pronunciations -/

/-- On an acyclic DAG the listing succeeds and has exactly one entry per maximal path from node 0:
the labels along the path. -/
theorem C15_listing (d : PronunDAG) (h : Built d) (ha : Acyclic d) :
    ∃ ps : List (List (Entry Syl)),
      PronunDAG.sylStrings d 0 = .ok (ps.map fun p => p.map fun e => e.val) ∧
      ps.Nodup ∧ ∀ p, p ∈ ps ↔ MaxPath d 0 p := by
  obtain ⟨ps, hps⟩ := DAG.walk_acyclic ha 0
  obtain ⟨h1, _, h3⟩ := DAG.walk_spec d _ 0 ps hps
  refine ⟨ps, by rw [PronunDAG.sylStrings_walk, hps]; rfl, h3 ?_, h1⟩
  refine (DAG.Coh.of_built h).distinct.imp fun {a b} hab (he : a = b) => hab ?_
  rw [he]; exact DAG.Same.refl _

/-- The listing is empty exactly when node 0 has no outgoing edge. -/
theorem C15_empty (d : PronunDAG) (ha : Acyclic d) :
    PronunDAG.sylStrings d 0 = .ok [] ↔ d.outEdges 0 = [] := by
  obtain ⟨ps, hps⟩ := DAG.walk_acyclic ha 0
  obtain ⟨_, h2, _⟩ := DAG.walk_spec d _ 0 ps hps
  rw [PronunDAG.sylStrings_walk, hps, ← h2]
  simp

example : Acyclic sample ∧ PronunDAG.sylStrings sample 0 =
    .ok [[syl 2, syl 5], [syl 3, syl 5], [syl 3, { syl 5 with tone := .THO }]] :=
  ⟨acyclic_of_rank id (by decide), by decide⟩

/-! ## C16: rebuilding -/

/-- The DAG built from a list of strings has exactly the edges of the strings. -/
theorem C16_ofStrings (ss : List SylString) (u v : Int) (x : Syl) :
    Edge (PronunDAG.ofStrings ss) u v x ↔ ∃ s ∈ ss, ∃ y, StringEdge s u v y ∧ Syl.eq y x = true := by
  unfold PronunDAG.ofStrings
  rw [edge_foldl_addSylString]
  simp [C14_empty]

/-- Listing a DAG and rebuilding it from the list gives the same edges, provided every edge lies on
a path from node 0 and carries the end position of its target. -/
theorem C16_rebuild (d : PronunDAG) (ha : Acyclic d)
    (hr : ∀ e ∈ d.mFrom, Relation.ReflTransGen (Arrow d) 0 e.key)
    (he : ∀ e ∈ d.mFrom, e.val.endPos = e.target) :
    ∃ ss, PronunDAG.sylStrings d 0 = .ok ss ∧
      ∀ u v x, Edge (PronunDAG.ofStrings ss) u v x ↔ Edge d u v x := by
  obtain ⟨ps, hps⟩ := DAG.walk_acyclic ha 0
  obtain ⟨h1, _, _⟩ := DAG.walk_spec d _ 0 ps hps
  refine ⟨_, by rw [PronunDAG.sylStrings_walk, hps]; rfl, fun u v x => ?_⟩
  rw [C16_ofStrings, DAG.edge_iff]
  constructor
  · rintro ⟨s, hs, y, ⟨p, r, hsp, rfl, hu⟩, hx⟩
    obtain ⟨path, hpath, rfl⟩ := List.mem_map.mp hs
    have hp := ((h1 path).mp hpath).isPath
    obtain ⟨q, t, rfl, rfl, ht⟩ := List.map_eq_append_iff.mp hsp
    obtain ⟨e, r', rfl, rfl, rfl⟩ := List.map_eq_cons_iff.mp ht
    have hem := hp.mem e (by simp)
    refine ⟨e, hem, ?_, (he e hem).symm, hx⟩
    rw [hp.key_eq q r' e rfl, hu, List.getLast?_map]
    cases hq : q.getLast? with
    | none => rfl
    | some f =>
      have := he f (hp.mem f (List.mem_append.mpr (.inl (List.mem_of_getLast? hq))))
      simp [this]
  · rintro ⟨e, hem, rfl, rfl, hx⟩
    obtain ⟨p, q, hpq⟩ := DAG.exists_maxPath_through ha hem (hr e hem)
    refine ⟨(p ++ e :: q).map Entry.val, List.mem_map.mpr ⟨_, (h1 _).mpr hpq, rfl⟩, e.val, ?_, hx⟩
    refine ⟨p.map Entry.val, q.map Entry.val, by simp, (he e hem).symm, ?_⟩
    rw [hpq.isPath.key_eq p q e rfl, List.getLast?_map]
    cases hq : p.getLast? with
    | none => rfl
    | some f =>
      have := he f (hpq.isPath.mem f (List.mem_append.mpr (.inl (List.mem_of_getLast? hq))))
      simp [this]

example : Acyclic sample ∧ (∀ e ∈ sample.mFrom, e.val.endPos = e.target) ∧
    ∀ e ∈ sample.mFrom, Relation.ReflTransGen (Arrow sample) 0 e.key := by
  refine ⟨acyclic_of_rank id (by decide), by decide, ?_⟩
  have h2 : Relation.ReflTransGen (Arrow sample) 0 2 := .single ⟨⟨0, 2, syl 2⟩, by decide, rfl⟩
  have h3 : Relation.ReflTransGen (Arrow sample) 0 3 := .single ⟨⟨0, 3, syl 3⟩, by decide, rfl⟩
  intro e he
  have : e.key = 0 ∨ e.key = 2 ∨ e.key = 3 :=
    (by decide : ∀ e ∈ sample.mFrom, e.key = 0 ∨ e.key = 2 ∨ e.key = 3) e he
  rcases this with h | h | h <;> rw [h]
  · exact h2
  · exact h3

end Thpronun
