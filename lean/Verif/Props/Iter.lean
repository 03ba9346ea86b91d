import Verif.Lemmas.IterRest
import Verif.Props.Frac
import Verif.Props.Parser

/-! # Iterators: C84 -/

namespace Thpronun
open Res Spec

variable {V : Type} [CppEq V] [LawfulCppEq V]

/-- The operations of a DAG use no iterator to an erased element, whatever identities its elements have, and do what the
operations on lists do. -/
theorem C84_dag (i : IDag V) (d : DAG V) (hb : Built d) (h : RepD i d) (u v : Int) (x : V) :
    i.isEdgeExist u v x = .ok (d.isEdgeExist u v x) ∧
    (∃ i', i.addEdge u v x = .ok i' ∧ RepD i' (d.addEdge u v x).1) ∧
    (∃ i', i.removeEdge u v x = .ok i' ∧ RepD i' (d.removeEdge u v x).1) ∧
    (∃ i', i.removeDirectEdges u v = .ok i' ∧ RepD i' (d.removeDirectEdges u v).1) ∧
    (∀ (o : IDag V) (e : DAG V), RepD o e → ∃ i', i.unionDAG o = .ok i' ∧ RepD i' (d.unionDAG e)) := by
  have hc := DAG.Coh.of_built hb
  exact ⟨IDag.exist_eq h hc.sortedFrom u v x, IDag.addEdge_rep h hc.sortedFrom u v x,
    IDag.removeEdge_rep h hc.sortedFrom hc.sortedTo u v x, IDag.removeDirectEdges_rep h hc.sortedFrom hc.sortedTo u v,
    fun o e ho => IDag.unionDAG_rep h hc.sortedFrom ho⟩

/-- The same for the alternatives of a fraction. -/
theorem C84_alts (c : Cont SylString) (f : PronunFrac) (h : Rep c f.alts) (s : SylString) :
    ∃ c', insertAltI c s = .ok c' ∧ Rep c' (f.addStr s).alts := insertAltI_rep h s

/-- The same for `PronunChain::mergeSingles`, which erases while it iterates. -/
theorem C84_chain (c : Cont PronunFrac) (l : PronunChain) (h : Rep c l) :
    ∃ c', IChain.mergeSingles c = .ok c' ∧ Rep c' (PronunChain.mergeSingles l) := IChain.mergeSingles_rep h

/-- The same for `StatePool::add`. -/
theorem C84_pool (c : Cont PState) (l : StatePool) (h : Rep c l) (s : PState) :
    ∃ c', IPool.add c s = .ok c' ∧ Rep c' (l.add s) := IPool.add_rep h s

/-- The same for the stretching of edges over a period, which erases the edge that its iterator points to. -/
theorem C84_dot (i : IDag Syl) (d : PronunDAG) (hb : Built d) (h : RepD i d) (pos : Nat) :
    ∃ i' d', IPool.stretchDot pos i = .ok i' ∧ stretchDot pos (d.inDegree pos + 1) d = .ok d' ∧ RepD i' d' := by
  have hc := DAG.Coh.of_built hb
  obtain ⟨d', h1⟩ := IPool.stretchDot_ok (p := pos) (d.inDegree pos + 1) d hc (Nat.lt_succ_self _)
  have h2 := IPool.stretchDot_alike (pos := pos) (d.inDegree pos + 1) i d h hc (by rw [h1]; simp)
  rw [h1] at h2
  generalize IPool.stretchDot pos i = r at h2 ⊢
  cases h2 with
  | ok h3 => exact ⟨_, d', rfl, h1, h3⟩

/-- Grouping ends as it does on lists, with the same result; so an iterator to an erased element is used exactly where
the model on lists says so, which is when two edges are merged of which one is the other (a loop). -/
theorem C84_exact (i : IDag Syl) (d : PronunDAG) (h : RepD i d) : Alike RepD (IFrac.fracDAG i) (PronunDAG.fracDAG d) :=
  fracDAG_alike h.out

/-- Elements with the identities 0, 1, … -/
private theorem exists_rep {α : Type} (l : List α) : ∃ c : Cont α, Rep c l := by
  refine ⟨⟨(List.range l.length).zip l, l.length⟩, ?_, ?_, ?_⟩
  · exact List.map_snd_zip (by simp)
  · show (List.map Prod.fst _).Nodup
    rw [List.map_fst_zip (by simp)]
    exact List.nodup_range
  · intro x hx
    exact List.mem_range.mp (List.of_mem_zip hx).1

private theorem exists_repD {V : Type} (d : DAG V) : ∃ i : IDag V, RepD i d := by
  obtain ⟨f, hf⟩ := exists_rep d.mFrom
  obtain ⟨t, ht⟩ := exists_rep d.mTo
  exact ⟨⟨f, t⟩, hf, ht⟩

/-- False: there is a DAG without an edge from a node to itself whose grouping uses an iterator to an erased element. -/
theorem C84_false : ∃ (i : IDag Syl) (d : PronunDAG), RepD i d ∧ Built d ∧ (∀ u, ¬ Arrow d u u) ∧ IFrac.fracDAG i = .ub := by
  obtain ⟨d, hb, hl, hu⟩ := C18_loop_false
  obtain ⟨i, hi⟩ := exists_repD d
  have h := C84_exact i d hi
  rw [hu] at h
  refine ⟨i, d, hi, hb, hl, ?_⟩
  generalize IFrac.fracDAG i = r at h ⊢
  cases h with
  | ub => rfl

/-- Grouping of an acyclic DAG uses no iterator to an erased element. (Missing: DAGs with cycles, see `C84_false`.) -/
theorem C84_partial (i : IDag Syl) (d : PronunDAG) (h : RepD i d) (ha : Acyclic d) :
    ∃ g f, IFrac.fracDAG i = .ok g ∧ PronunDAG.fracDAG d = .ok f ∧ RepD g f := by
  obtain ⟨f, hf⟩ := C18_returns_partial d ha
  have hal := C84_exact i d h
  rw [hf] at hal
  generalize IFrac.fracDAG i = r at hal ⊢
  cases hal with
  | ok hr => exact ⟨_, f, rfl, hf, hr⟩

/-- So does the grouping of the pronunciations of a word. -/
theorem C84_word {ct : CType} {p : Parser} {word : Str} {w : U16Str} {look : List Nat → Option Str} {d : PronunDAG}
    (hct : ct.Ok) (hw : fromBytes word = .ok w) (hd : Holds p.exceptDict look) (hg : GoodLook look)
    (h : p.parseWord ct word = .ok d) (i : IDag Syl) (hi : RepD i d) :
    ∃ g f, IFrac.fracDAG i = .ok g ∧ PronunDAG.fracDAG d = .ok f ∧ RepD g f :=
  C84_partial i d hi (C38_acyclic hct hw hd hg h).2

/-- The hypotheses are met: two syllables beside one, with identities. -/
example : let d : PronunDAG := PronunDAG.ofStrings [[⟨.KA, SC.NONE, VW.A, .NONE, .SAMAN, [], 2⟩,
      ⟨.NA, SC.NONE, VW.A, .NONE, .SAMAN, [], 5⟩], [⟨.KA, SC.NONE, VW.I, .NONE, .SAMAN, [], 5⟩]]
    ∃ i : IDag Syl, RepD i d ∧ Built d ∧ Acyclic d ∧ d.mFrom.length = 3 :=
  ⟨_, (exists_repD _).choose_spec, .addEdge _ _ _ (.addEdge _ _ _ (.addEdge _ _ _ .empty)),
    acyclic_of_rank id (by decide), by decide⟩

/-- An iterator to an erased element is not good for anything. -/
example : let c : Cont Nat := ⟨[(0, 7), (1, 8)], 2⟩
    ∃ c' i, c.erase (.node 0) = .ok (c', i) ∧ c'.get (.node 0) = .ub ∧ c'.next (.node 0) = .ub ∧ c'.same (.node 0) .fin = .ub ∧
      c'.erase (.node 0) = .ub ∧ c'.get i = .ok 8 :=
  ⟨_, _, rfl, rfl, rfl, rfl, rfl, rfl⟩

end Thpronun
