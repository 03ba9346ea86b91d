import Verif.Lemmas.Frac

/-! # Properties C17–C19: grouping a pronunciation DAG into fractions -/

namespace Thpronun
open Spec

private def syl (v : Vowel) (e : Int) : Syl := ⟨.KA, SC.NONE, v, .NONE, .EK, [], e⟩

/-- A sample: a detour 0 → 2 → 5 beside 0 → 5, then two parallel edges 5 → 7, then 7 → 9. -/
private def sample : PronunDAG := PronunDAG.ofStrings [
  [syl VW.A 2, syl VW.I 5, syl VW.U 7, syl VW.A 9], [syl VW.AA 5, syl VW.UU 7, syl VW.A 9]]

/-- C17: grouping and then choosing alternatives gives the same readings, up to `==`, as listing the
DAG. -/
theorem C17_same_readings (d : PronunDAG) (ha : Acyclic d) (hroot : ∀ u, ¬ Arrow d u 0) :
    ∃ l f latt, PronunDAG.sylStrings d 0 = .ok l ∧ PronunDAG.fracDAG d = .ok f ∧
      FracDAG.lattice f = .ok latt ∧
      ∀ s, (∃ t ∈ expandLatt latt, SylString.eq t s = true) ↔ ∃ t ∈ l, SylString.eq t s = true := by
  obtain ⟨hc0, hr0, hs0, har0⟩ := toFrac_spec d
  have ha0 : Acyclic d.toFrac :=
    FracDAG.acyclic_of_sub (d := d) (fun x y h => .single ((har0 x y).mp h)) ha
  obtain ⟨d1, e1, hc1, hs1, ha1, _, hlang1⟩ :=
    FracDAG.mergeSinglesLoop_spec _ d.toFrac hc0 hs0 ha0 (Nat.lt_succ_self _)
  obtain ⟨_, hlang1⟩ := hlang1 fun u hu => hroot u ((har0 u 0).mp hu)
  obtain ⟨d2, e2, hc2, _, hr2, har2, hm2⟩ :=
    FracDAG.mergeParallelsLoop_spec (d1.mFrom.length + 1) 0 d1 hc1 (by omega) (Nat.lt_succ_self _)
  have ha2 : Acyclic d2 :=
    FracDAG.acyclic_of_sub (d := d1) (fun x y h => .single ((har2 x y).mp h)) ha1
  have hne2 : ∀ e ∈ d2.mFrom, e.val.alts ≠ [] := by
    intro e he h0
    have hex : ∃ a, altRel PronunFrac.alts d1 e.key e.target a := by
      obtain ⟨x, hx, ht⟩ := (har2 e.key e.target).mp ⟨e, DAG.mem_outEdges.mpr ⟨he, rfl⟩, rfl⟩
      obtain ⟨a, ha⟩ := List.length_eq_one_iff.mp (hs1 x (DAG.mem_outEdges.mp hx).1).1
      exact ⟨a, x, hx, ht, a, by simp [ha], SylString.eq_refl a⟩
    rcases hm2 e he with h | ⟨_, _, h⟩
    · have := (hs1 e h).1
      rw [h0] at this; simp at this
    · obtain ⟨a, ha⟩ := hex
      obtain ⟨b, hb, _⟩ := (h a).mpr ha
      rw [h0] at hb; simp at hb
  obtain ⟨ps, hps⟩ := DAG.walk_acyclic ha 0
  obtain ⟨qs, hqs⟩ := DAG.walk_acyclic ha2 0
  refine ⟨_, d2, PronunLatt.mergeSingles (qs.map fun p => p.map Entry.val), by rw [PronunDAG.sylStrings_walk, hps]; rfl, ?_, ?_, fun s => ?_⟩
  · unfold PronunDAG.fracDAG FracDAG.mergeFractions FracDAG.mergeSingles
    rw [e1]; exact e2
  · unfold FracDAG.lattice
    rw [FracDAG.nodeLattice_walk, hqs]; rfl
  · have h1 := lang_iff_path sylAlts (d := d) (by simp [sylAlts]) 0 s
    have h2 := lang_iff_path PronunFrac.alts hne2 0 s
    have hL : Lang (altRel PronunFrac.alts d2) 0 s ↔ Lang (altRel sylAlts d) 0 s := by
      rw [Lang.congr hr2, hlang1, Lang.congr hr0]
    have hmerge : expandLatt (PronunLatt.mergeSingles (qs.map fun p => p.map Entry.val)) =
        expandLatt (qs.map fun p => p.map Entry.val) := by
      have h3 : (PronunLatt.mergeSingles (qs.map fun p => p.map Entry.val)).map expand =
          (qs.map fun p => p.map Entry.val).map expand := by
        simp [PronunLatt.mergeSingles, PronunChain.mergeSingles, (expand_mergeSinglesAux _).1]
      unfold expandLatt
      rw [List.flatMap_def, h3, ← List.flatMap_def]
    rw [hmerge]
    obtain ⟨w1, _, _⟩ := DAG.walk_spec d _ 0 ps hps
    obtain ⟨w2, _, _⟩ := DAG.walk_spec d2 _ 0 qs hqs
    constructor
    · rintro ⟨t, ht, hts⟩
      simp only [expandLatt, List.mem_flatMap, List.mem_map] at ht
      obtain ⟨_, ⟨q, hq, rfl⟩, ht⟩ := ht
      obtain ⟨p, hp, t', ht', he⟩ := h1.mp (hL.mp (h2.mpr ⟨q, (w2 q).mp hq, t, by
        rw [expandBy_frac]; exact ht, hts⟩))
      rw [expandBy_syl, List.mem_singleton] at ht'
      subst ht'
      exact ⟨_, List.mem_map.mpr ⟨p, (w1 p).mpr hp, rfl⟩, he⟩
    · rintro ⟨t, ht, hts⟩
      obtain ⟨p, hp, rfl⟩ := List.mem_map.mp ht
      obtain ⟨q, hq, t', ht', he⟩ := h2.mp (hL.mpr (h1.mpr ⟨p, (w1 p).mp hp, _, by
        rw [expandBy_syl]; exact List.mem_singleton.mpr rfl, hts⟩))
      rw [expandBy_frac] at ht'
      refine ⟨t', ?_, he⟩
      simp only [expandLatt, List.mem_flatMap, List.mem_map]
      exact ⟨_, ⟨q, (w2 q).mpr hq, rfl⟩, ht'⟩

example : Acyclic sample ∧ (∀ u, ¬ Arrow sample u 0) ∧
    (∃ f, PronunDAG.fracDAG sample = .ok f ∧ f.mFrom.length = 3 ∧
      (FracDAG.lattice f).Sat fun latt => (expandLatt latt).length = 4 ∧ latt.length = 1) := by
  refine ⟨acyclic_of_rank id (by decide), ?_, ?_⟩
  · rintro u ⟨e, he, ht⟩
    exact (by decide : ∀ e ∈ sample.mFrom, e.target ≠ 0) e (DAG.mem_outEdges.mp he).1 ht
  · have : (PronunDAG.fracDAG sample).Sat fun f => f.mFrom.length = 3 ∧
        (FracDAG.lattice f).Sat fun latt => (expandLatt latt).length = 4 ∧ latt.length = 1 := by
      decide
    obtain ⟨f, hf, h⟩ := (Res.sat_iff _ _).mp this
    exact ⟨f, hf, h⟩

/-- The condition on the root is needed: with an edge into node 0, grouping may absorb the root and
lose every reading. -/
theorem C17_root_needed : ∃ d : PronunDAG, Built d ∧ Acyclic d ∧
    PronunDAG.sylStrings d 0 = .ok [[syl VW.A 3]] ∧
    (PronunDAG.fracDAG d).Sat fun f => FracDAG.lattice f = .ok [] :=
  ⟨((DAG.empty.addEdge (-5) 0 (syl VW.A 0)).1.addEdge 0 3 (syl VW.A 3)).1,
    .addEdge _ _ _ (.addEdge _ _ _ .empty), acyclic_of_rank id (by decide), by decide, by decide⟩

/-- C18: grouping terminates on every DAG whatsoever: it returns or (see `C18_loop_false`) runs into
undefined behaviour, but it never loops. -/
theorem C18_terminates (d : PronunDAG) :
    (∃ f, PronunDAG.fracDAG d = .ok f) ∨ PronunDAG.fracDAG d = .ub := by
  obtain ⟨hc0, _, hs0, _⟩ := toFrac_spec d
  rcases FracDAG.mergeSinglesLoop_total _ d.toFrac hc0 hs0 (Nat.lt_succ_self _) with
    ⟨d1, e1, hc1, _⟩ | h
  · left
    obtain ⟨d2, e2, _⟩ :=
      FracDAG.mergeParallelsLoop_spec (d1.mFrom.length + 1) 0 d1 hc1 (by omega) (Nat.lt_succ_self _)
    refine ⟨d2, ?_⟩
    unfold PronunDAG.fracDAG FracDAG.mergeFractions FracDAG.mergeSingles
    rw [e1]; exact e2
  · right
    unfold PronunDAG.fracDAG FracDAG.mergeFractions FracDAG.mergeSingles
    rw [h]; rfl

/-- C18: on an acyclic DAG grouping returns normally. (Missing from the property as stated: DAGs
with cycles but without self-loops, for which it is false.) -/
theorem C18_returns_partial (d : PronunDAG) (ha : Acyclic d) : ∃ f, PronunDAG.fracDAG d = .ok f := by
  obtain ⟨hc0, _, hs0, har0⟩ := toFrac_spec d
  have ha0 : Acyclic d.toFrac :=
    FracDAG.acyclic_of_sub (d := d) (fun x y h => .single ((har0 x y).mp h)) ha
  obtain ⟨d1, e1, hc1, _⟩ :=
    FracDAG.mergeSinglesLoop_spec _ d.toFrac hc0 hs0 ha0 (Nat.lt_succ_self _)
  obtain ⟨d2, e2, _⟩ :=
    FracDAG.mergeParallelsLoop_spec (d1.mFrom.length + 1) 0 d1 hc1 (by omega) (Nat.lt_succ_self _)
  refine ⟨d2, ?_⟩
  unfold PronunDAG.fracDAG FracDAG.mergeFractions FracDAG.mergeSingles
  rw [e1]; exact e2

example : Acyclic sample := acyclic_of_rank id (by decide)

/-- Without acyclicity the absence of self-loops is not enough: merging a two-cycle creates a
self-loop, whose merging uses an erased element. -/
theorem C18_loop_false : ∃ d : PronunDAG, Built d ∧ (∀ u, ¬ Arrow d u u) ∧
    PronunDAG.fracDAG d = .ub := by
  refine ⟨((DAG.empty.addEdge 0 1 (syl VW.A 1)).1.addEdge 1 0 (syl VW.A 0)).1,
    .addEdge _ _ _ (.addEdge _ _ _ .empty), ?_, by decide⟩
  rintro u ⟨e, he, ht⟩
  obtain ⟨he, hk⟩ := DAG.mem_outEdges.mp he
  exact (by decide : ∀ e ∈ ((DAG.empty.addEdge 0 1 (syl VW.A 1)).1.addEdge 1 0 (syl VW.A 0)).1.mFrom,
    e.target ≠ e.key) e he (ht.trans hk.symm)

/-- C18: in the result no two edges share both endpoints. -/
theorem C18_no_parallel (d : PronunDAG) (f : FracDAG) (h : PronunDAG.fracDAG d = .ok f) :
    f.mFrom.Pairwise fun a b => ¬ (a.key = b.key ∧ a.target = b.target) := by
  obtain ⟨hc0, _, hs0, _⟩ := toFrac_spec d
  rcases FracDAG.mergeSinglesLoop_total _ d.toFrac hc0 hs0 (Nat.lt_succ_self _) with
    ⟨d1, e1, hc1, _⟩ | h'
  · obtain ⟨d2, e2, _, hp, _⟩ :=
      FracDAG.mergeParallelsLoop_spec (d1.mFrom.length + 1) 0 d1 hc1 (by omega) (Nat.lt_succ_self _)
    have : f = d2 := by
      unfold PronunDAG.fracDAG FracDAG.mergeFractions FracDAG.mergeSingles at h
      rw [e1] at h
      exact Res.ok.inj (h.symm.trans e2)
    subst this
    rw [List.pairwise_iff_forall_sublist]
    intro a b hab heq
    have h1 := (hab.filter fun e => decide (e.key = a.key) && decide (e.target = a.target)).length_le
    have h2 := hp a.key a.target
    rw [FracDAG.parallels_eq_filter] at h2
    simp [heq.1, heq.2] at h1 h2
    omega
  · unfold PronunDAG.fracDAG FracDAG.mergeFractions FracDAG.mergeSingles at h
    rw [h'] at h
    simp at h

/-- C19 is false: the fraction made of parallel edges has end position −1. -/
theorem C19_false : ∃ d : PronunDAG, Built d ∧ Acyclic d ∧
    (PronunDAG.fracDAG d).Sat fun f => ∃ e ∈ f.mFrom, e.val.endPos = -1 ∧ e.target = 3 :=
  ⟨((DAG.empty.addEdge 0 3 (syl VW.A 3)).1.addEdge 0 3 (syl VW.I 3)).1,
    .addEdge _ _ _ (.addEdge _ _ _ .empty), acyclic_of_rank id (by decide), by decide⟩

/-- What holds instead: fractions with one alternative know their end; all others say −1.
(Missing: the end position of fractions with several alternatives.) -/
theorem C19_endPos_partial (d : PronunDAG) (f : FracDAG) (h : PronunDAG.fracDAG d = .ok f) :
    ∀ e ∈ f.mFrom, e.val.endPos = if e.val.altCount = 1 then e.target else -1 := by
  obtain ⟨hc0, _, hs0, _⟩ := toFrac_spec d
  rcases FracDAG.mergeSinglesLoop_total _ d.toFrac hc0 hs0 (Nat.lt_succ_self _) with
    ⟨d1, e1, hc1, hs1⟩ | h'
  · obtain ⟨d2, e2, _, _, _, _, hm⟩ :=
      FracDAG.mergeParallelsLoop_spec (d1.mFrom.length + 1) 0 d1 hc1 (by omega) (Nat.lt_succ_self _)
    have : f = d2 := by
      unfold PronunDAG.fracDAG FracDAG.mergeFractions FracDAG.mergeSingles at h
      rw [e1] at h
      exact Res.ok.inj (h.symm.trans e2)
    subst this
    intro e he
    rcases hm e he with h | ⟨h1, h2, h3⟩
    · rw [if_pos (show e.val.altCount = 1 from (hs1 e h).1)]; exact (hs1 e h).2
    · rw [if_neg, h2]
      intro hone
      obtain ⟨c, hcc⟩ := List.length_eq_one_iff.mp hone
      have hin : ∀ x ∈ FracDAG.parallels d1 e.key e.target, ∀ a ∈ x.val.alts,
          SylString.eq c a = true := by
        intro x hx a ha
        obtain ⟨g1, g2, g3⟩ := FracDAG.mem_parallels.mp hx
        obtain ⟨b, hb, hba⟩ := (h3 a).mpr ⟨x, DAG.mem_outEdges.mpr ⟨g1, g2⟩, g3, a, ha,
          SylString.eq_refl a⟩
        rw [hcc, List.mem_singleton] at hb
        exact hb ▸ hba
      have hdist : (FracDAG.parallels d1 e.key e.target).Pairwise fun a b => ¬ DAG.Same a b := by
        rw [FracDAG.parallels_eq_filter]
        exact hc1.distinct.sublist List.filter_sublist
      match hl : FracDAG.parallels d1 e.key e.target with
      | [] => rw [hl] at h1; simp at h1
      | [x] => rw [hl] at h1; simp at h1
      | x :: y :: r =>
        rw [hl] at hdist hin
        have hx := FracDAG.mem_parallels.mp (hl ▸ List.mem_cons_self : x ∈ FracDAG.parallels d1 e.key e.target)
        have hy := FracDAG.mem_parallels.mp (hl ▸ (by simp) : y ∈ FracDAG.parallels d1 e.key e.target)
        obtain ⟨a, ha⟩ := List.length_eq_one_iff.mp (hs1 x hx.1).1
        obtain ⟨b, hb⟩ := List.length_eq_one_iff.mp (hs1 y hy.1).1
        refine (List.pairwise_cons.mp hdist).1 y (by simp) ⟨hx.2.1.trans hy.2.1.symm,
          hx.2.2.trans hy.2.2.symm, (PronunFrac.altsEq_iff _ _).mpr ?_⟩
        rw [ha, hb]
        exact .cons (SylString.eq_trans (SylString.eq_symm (hin x (by simp) a (by simp [ha])))
          (hin y (by simp) b (by simp [hb]))) .nil
  · unfold PronunDAG.fracDAG FracDAG.mergeFractions FracDAG.mergeSingles at h
    rw [h'] at h
    simp at h

example : (PronunDAG.fracDAG sample).Sat fun f =>
    f.mFrom.map (fun e => (e.target, e.val.altCount, e.val.endPos)) = [(5, 2, -1), (7, 2, -1), (9, 1, 9)] := by
  decide

end Thpronun
