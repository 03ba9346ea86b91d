import Verif.Lemmas.Compact
import Verif.Props.Parser
import Verif.Props.Dag

/-! # Property C93: grouping never makes the output longer -/

namespace Thpronun
open Res Spec

/-- Every reading of the lattice is one of the listed ones, with the same end positions, and no reading is denoted twice. Readings of
different lines even differ in their end positions. -/
theorem C93_code (d : PronunDAG) (ha : Acyclic d) (hroot : ∀ u, ¬ Arrow d u 0)
    (hend : ∀ e ∈ d.mFrom, e.val.endPos = e.target) {l : List SylString} {f : FracDAG} {latt : PronunLatt}
    (hl : PronunDAG.sylStrings d 0 = .ok l) (hf : PronunDAG.fracDAG d = .ok f) (hlatt : FracDAG.lattice f = .ok latt) :
    (expandLatt latt).Nodup ∧ (∀ t ∈ expandLatt latt, t ∈ l) ∧ (∀ c ∈ latt, ∀ x ∈ c, x.alts ≠ []) ∧
    latt.Pairwise fun c c' => ∀ t ∈ Spec.expand c, ∀ t' ∈ Spec.expand c', t.map Syl.endPos ≠ t'.map Syl.endPos := by
  obtain ⟨hc0, hr0, hs0, har0⟩ := toFrac_spec d
  have ha0 : Acyclic d.toFrac :=
    FracDAG.acyclic_of_sub (d := d) (fun x y h => .single ((har0 x y).mp h)) ha
  obtain ⟨d1, e1, hc1, -, -, -, -⟩ :=
    FracDAG.mergeSinglesLoop_spec _ d.toFrac hc0 hs0 ha0 (Nat.lt_succ_self _)
  obtain ⟨d2, e2, hc2, hpar, -, -, -⟩ :=
    FracDAG.mergeParallelsLoop_spec (d1.mFrom.length + 1) 0 d1 hc1 (by omega) (Nat.lt_succ_self _)
  have T : Tidy d d2 := tidy_parallels _ _ (tidy_singles hend _ hc0 hs0 (tidy_toFrac hroot) ha0 e1) e2
  have hf' : PronunDAG.fracDAG d = .ok d2 := by
    unfold PronunDAG.fracDAG FracDAG.mergeFractions FracDAG.mergeSingles
    rw [e1]; exact e2
  rw [hf] at hf'
  cases hf'
  unfold FracDAG.lattice at hlatt
  rw [FracDAG.nodeLattice_walk] at hlatt
  obtain ⟨l', h1, h2⟩ := Res.bind_eq_ok.mp hlatt
  obtain ⟨qs, h3, h4⟩ := Res.bind_eq_ok.mp h1
  cases h4
  cases h2
  obtain ⟨w2, -, hnd⟩ := DAG.walk_spec f _ 0 qs h3
  have hnd : qs.Nodup := hnd (hc2.distinct.imp fun {a b} h he => h (by
    subst he
    exact ⟨rfl, rfl, LawfulCppEq.refl _⟩))
  rw [PronunDAG.sylStrings_walk] at hl
  obtain ⟨ps, h5, h6⟩ := Res.bind_eq_ok.mp hl
  cases h6
  obtain ⟨w1, -, -⟩ := DAG.walk_spec d _ 0 ps h5
  have hmem : ∀ q ∈ qs, ∀ e ∈ q, e ∈ f.mFrom := by
    intro q hq
    have h := (w2 q).mp hq
    clear hq
    generalize (0 : Int) = n at h
    induction h with
    | last h _ =>
      intro e he
      cases List.mem_singleton.mp he
      exact (DAG.mem_outEdges.mp h).1
    | step h _ ih =>
      intro e he
      rcases List.mem_cons.mp he with rfl | he
      · exact (DAG.mem_outEdges.mp h).1
      · exact ih e he
  have hmerge : expandLatt (PronunLatt.mergeSingles (qs.map fun p => p.map Entry.val)) =
      qs.flatMap fun q => Spec.expand (q.map Entry.val) := by
    have h3 : (PronunLatt.mergeSingles (qs.map fun p => p.map Entry.val)).map Spec.expand =
        (qs.map fun p => p.map Entry.val).map Spec.expand := by
      simp [PronunLatt.mergeSingles, PronunChain.mergeSingles, (expand_mergeSinglesAux _).1]
    unfold expandLatt
    rw [List.flatMap_def, h3, List.map_map, List.flatMap_def]
    rfl
  refine ⟨?_, fun t ht => ?_, fun c hc => ?_, ?_⟩
  · rw [hmerge, List.nodup_flatMap]
    refine ⟨fun q hq => T.nodup_expand hend q (hmem q hq), hnd.imp_of_mem fun {a b} ha hb hab t h1 h2 => ?_⟩
    exact hab (T.same_path hend hpar ((w2 a).mp ha) ((w2 b).mp hb) h1 h2)
  · rw [hmerge] at ht
    obtain ⟨q, hq, ht⟩ := List.mem_flatMap.mp ht
    obtain ⟨p, hp, rfl⟩ := T.origin ((w2 q).mp hq) ht
    exact List.mem_map.mpr ⟨p, (w1 p).mpr hp, rfl⟩
  · obtain ⟨c', hc', rfl⟩ := List.mem_map.mp hc
    obtain ⟨q, hq, rfl⟩ := List.mem_map.mp hc'
    refine (mergeSinglesAux_ne _ fun x hx => ?_).1
    obtain ⟨e, he, rfl⟩ := List.mem_map.mp hx
    exact (T.alts e (hmem q hq e he)).2
  · unfold PronunLatt.mergeSingles
    rw [List.pairwise_map, List.pairwise_map]
    refine hnd.imp_of_mem fun {a b} ha hb hab t ht t' ht' he => hab ?_
    unfold PronunChain.mergeSingles at ht ht'
    rw [(expand_mergeSinglesAux _).1] at ht ht'
    exact T.same_ends hend hpar ((w2 a).mp ha) ((w2 b).mp hb) ht ht' he

/-- C93: for a proper graph of syllables, the grouped form has no more lines and no more syllables than the list has. -/
theorem C93_graph (d : PronunDAG) (ha : Acyclic d) (hroot : ∀ u, ¬ Arrow d u 0)
    (hend : ∀ e ∈ d.mFrom, e.val.endPos = e.target) {l : List SylString} {f : FracDAG} {latt : PronunLatt}
    (hl : PronunDAG.sylStrings d 0 = .ok l) (hf : PronunDAG.fracDAG d = .ok f) (hlatt : FracDAG.lattice f = .ok latt) :
    latt.length ≤ (expandLatt latt).length ∧ (expandLatt latt).length ≤ l.length ∧ lattSyllables latt ≤ syllables l := by
  obtain ⟨h1, h2, h3, -⟩ := C93_code d ha hroot hend hl hf hlatt
  obtain ⟨h4, h5⟩ := latt_syllables latt h3
  have hsub : (expandLatt latt).Subperm l := h1.subperm h2
  exact ⟨h4, hsub.length_le, h5.trans (syllables_subperm hsub)⟩

variable {ct : CType} {p : Parser} {word : Str} {w : U16Str} {look : List Nat → Option Str} {d : PronunDAG}

/-- C93: for every parsed word, the grouped form denotes every listed pronunciation, each reading only once, and has no more lines
and no more syllables than the list. -/
theorem C93 (hct : ct.Ok) (hw : fromBytes word = .ok w) (hd : Holds p.exceptDict look) (hg : GoodLook look)
    (h : p.parseWord ct word = .ok d) :
    ∃ l f latt, PronunDAG.sylStrings d 0 = .ok l ∧ PronunDAG.fracDAG d = .ok f ∧ FracDAG.lattice f = .ok latt ∧
      (expandLatt latt).Nodup ∧ (∀ t ∈ expandLatt latt, t ∈ l) ∧
      latt.length ≤ (expandLatt latt).length ∧ (expandLatt latt).length ≤ l.length ∧ lattSyllables latt ≤ syllables l := by
  obtain ⟨hb, ha⟩ := C38_acyclic hct hw hd hg h
  have hroot : ∀ u, ¬ Arrow d u 0 := by
    rintro u ⟨e, he, ht⟩
    obtain ⟨hm, hk⟩ := DAG.mem_outEdges.mp he
    obtain ⟨-, p1, p2, -⟩ := C38_edges hct hw hd hg h e hm
    rw [ht] at p2
    have : place 0 = 0 := rfl
    omega
  have hend := fun e he => (C38_edges hct hw hd hg h e he).1
  obtain ⟨l, f, latt, hl, hf, hlatt, -⟩ := C17_same_readings d ha hroot
  obtain ⟨h1, h2, -⟩ := C93_code d ha hroot hend hl hf hlatt
  exact ⟨l, f, latt, hl, hf, hlatt, h1, h2, C93_graph d ha hroot hend hl hf hlatt⟩

/-- C93: the lines of the grouped form of a parsed word divide the pronunciations by their positions: readings of different lines have
different sequences of end positions. -/
theorem C93_lines (hct : ct.Ok) (hw : fromBytes word = .ok w) (hd : Holds p.exceptDict look) (hg : GoodLook look)
    (h : p.parseWord ct word = .ok d) {f : FracDAG} {latt : PronunLatt} (hf : PronunDAG.fracDAG d = .ok f)
    (hlatt : FracDAG.lattice f = .ok latt) : (∀ c ∈ latt, Spec.expand c ≠ []) ∧
      latt.Pairwise fun c c' => ∀ t ∈ Spec.expand c, ∀ t' ∈ Spec.expand c', t.map Syl.endPos ≠ t'.map Syl.endPos := by
  obtain ⟨hb, ha⟩ := C38_acyclic hct hw hd hg h
  have hroot : ∀ u, ¬ Arrow d u 0 := by
    rintro u ⟨e, he, ht⟩
    obtain ⟨hm, hk⟩ := DAG.mem_outEdges.mp he
    obtain ⟨-, p1, p2, -⟩ := C38_edges hct hw hd hg h e hm
    rw [ht] at p2
    have : place 0 = 0 := rfl
    omega
  have hend := fun e he => (C38_edges hct hw hd hg h e he).1
  obtain ⟨l, f', latt', hl, hf', hlatt', -⟩ := C17_same_readings d ha hroot
  obtain ⟨-, -, h3, h4⟩ := C93_code d ha hroot hend hl hf hlatt
  refine ⟨fun c hc he => ?_, h4⟩
  have := (chain_syllables c (h3 c hc)).1
  rw [he] at this
  exact absurd this (by decide)

private def syl (v : Vowel) (e : Int) : Syl := ⟨.KA, SC.NONE, v, .NONE, .EK, [], e⟩

/-- Two detours 0 → 2 → 5 and 0 → 3 → 5 that read alike beside the edge 0 → 5, then 5 → 7. -/
private def detours : PronunDAG := PronunDAG.ofStrings [
  [syl VW.A 2, syl VW.I 5, syl VW.U 7], [syl VW.A 3, syl VW.I 5, syl VW.U 7], [syl VW.AA 5, syl VW.U 7]]

/-- The hypotheses are met by a graph whose list has three pronunciations with eight syllables, while the grouped form denotes two
readings with four syllables in one line. -/
example : Acyclic detours ∧ (∀ u, ¬ Arrow detours u 0) ∧ (∀ e ∈ detours.mFrom, e.val.endPos = e.target) ∧
    ((PronunDAG.sylStrings detours 0).Sat fun l => l.length = 3 ∧ syllables l = 8) ∧
    (PronunDAG.fracDAG detours).Sat fun f => (FracDAG.lattice f).Sat fun latt =>
      latt.length = 1 ∧ (expandLatt latt).length = 2 ∧ lattSyllables latt = 4 := by
  refine ⟨acyclic_of_rank id (by decide), ?_, by decide, by decide, by decide⟩
  rintro u ⟨e, he, ht⟩
  exact (by decide : ∀ e ∈ detours.mFrom, e.target ≠ 0) e (DAG.mem_outEdges.mp he).1 ht

/-- Two edges 0 → 1 and 0 → 2 with the same label, then one more from 1 to either of 3 and 4. -/
private def crossing : PronunDAG :=
  ((((DAG.empty.addEdge 0 1 (syl VW.A 0)).1.addEdge 0 2 (syl VW.A 0)).1.addEdge 1 3 (syl VW.A 0)).1.addEdge 1 4 (syl VW.A 0)).1

/-- The labels have to end where their edges end: with wrong end positions a reading can be denoted twice. -/
theorem C93_ends_needed : ∃ d : PronunDAG, Built d ∧ Acyclic d ∧ (∀ u, ¬ Arrow d u 0) ∧
    ∃ f latt, PronunDAG.fracDAG d = .ok f ∧ FracDAG.lattice f = .ok latt ∧ ¬ (expandLatt latt).Nodup := by
  have hs : (PronunDAG.fracDAG crossing).Sat fun f => (FracDAG.lattice f).Sat fun latt => ¬ (expandLatt latt).Nodup := by decide +kernel
  obtain ⟨f, hf, h⟩ := (Res.sat_iff _ _).mp hs
  obtain ⟨latt, hl, h⟩ := (Res.sat_iff _ _).mp h
  refine ⟨crossing, .addEdge _ _ _ (.addEdge _ _ _ (.addEdge _ _ _ (.addEdge _ _ _ .empty))),
    acyclic_of_rank id (by decide +kernel), ?_, f, latt, hf, hl, h⟩
  rintro u ⟨e, he, ht⟩
  exact (by decide +kernel : ∀ e ∈ crossing.mFrom, e.target ≠ 0) e (DAG.mem_outEdges.mp he).1 ht

end Thpronun
