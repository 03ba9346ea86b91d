import Verif.Lemmas.Ring
import Verif.Props.Frac
import Verif.Props.Iter

/-! # C18 and C84 on graphs with cycles: exactly where grouping goes wrong -/

namespace Thpronun
open Res Spec

private def syl (v : Vowel) (e : Int) : Syl := ⟨.KA, SC.NONE, v, .NONE, .EK, [], e⟩

private def graph (l : List (Int × Int × Syl)) : PronunDAG := l.foldl (fun d e => (d.addEdge e.1 e.2.1 e.2.2).1) DAG.empty

private theorem graph_built (l : List (Int × Int × Syl)) : Built (graph l) := by
  unfold graph
  suffices h : ∀ d : PronunDAG, Built d → Built (l.foldl (fun d e => (d.addEdge e.1 e.2.1 e.2.2).1) d) from h _ .empty
  induction l with
  | nil => exact fun _ h => h
  | cons e l ih => exact fun d h => ih _ (.addEdge _ _ _ h)

/-- A path from 0 to 9 beside the ring 2 → 3 → 4 → 2. -/
private def beside : PronunDAG := graph [(0, 9, syl VW.A 9), (2, 3, syl VW.A 3), (3, 4, syl VW.I 4), (4, 2, syl VW.U 2)]

/-- The ring 2 → 3 → 4 → 2 with a way in, from 0, and a way out, to 9. -/
private def passed : PronunDAG :=
  graph [(0, 2, syl VW.A 2), (2, 3, syl VW.A 3), (3, 4, syl VW.I 4), (4, 2, syl VW.U 2), (4, 9, syl VW.A 9)]

/-- From 0 over 1 or 2 to 3, and back. Both ways to 3 have the same syllables if `v` is `w`. -/
private def eye (v w : Vowel) : PronunDAG :=
  graph [(0, 1, syl v 1), (0, 2, syl w 1), (1, 3, syl VW.I 3), (2, 3, syl VW.I 3), (3, 0, syl VW.U 0)]

private theorem fracDAG_ub_iff (d : PronunDAG) :
    PronunDAG.fracDAG d = .ub ↔ FracDAG.mergeSinglesLoop (d.toFrac.mFrom.length + 1) d.toFrac = .ub := by
  obtain ⟨hc0, _, hs0, _⟩ := toFrac_spec d
  unfold PronunDAG.fracDAG FracDAG.mergeFractions FracDAG.mergeSingles
  rcases FracDAG.mergeSinglesLoop_total _ d.toFrac hc0 hs0 (Nat.lt_succ_self _) with ⟨d1, e1, hc1, _⟩ | h
  · obtain ⟨d2, e2, _⟩ :=
      FracDAG.mergeParallelsLoop_spec (d1.mFrom.length + 1) 0 d1 hc1 (by omega) (Nat.lt_succ_self _)
    refine iff_of_false (fun h => ?_) (fun h => by rw [e1] at h; cases h)
    rw [e1] at h
    cases e2.symm.trans h
  · exact iff_of_true (by rw [h]; rfl) h

private theorem rel_toFrac (d : PronunDAG) : altRel PronunFrac.alts d.toFrac = altRel sylAlts d := by
  funext u v a
  exact propext ((toFrac_spec d).2.1 u v a)

private theorem ring_iff {d : PronunDAG} (hb : Built d) (L : Int → Prop) : RingPart d L ↔ RingR (altRel sylAlts d) L := by
  have H := syl_oneEach (DAG.Coh.of_built hb)
  unfold RingPart RingR
  simp only [← H.out_iff, ← H.in_iff]
  refine and_congr_right fun _ => forall₂_congr fun v _ => and_congr ?_ ?_
  · exact ⟨fun ⟨e, h1, h2⟩ => ⟨_, h2, e, h1, rfl⟩, fun ⟨_, h2, e, h1, h3⟩ => ⟨e, h1, h3 ▸ h2⟩⟩
  · exact ⟨fun ⟨e, h1, h2⟩ => ⟨_, h2, e, h1, rfl⟩, fun ⟨_, h2, e, h1, h3⟩ => ⟨e, h1, h3 ▸ h2⟩⟩

private theorem arrow_iff {d : PronunDAG} (u v : Int) : Arrow d u v ↔ ∃ c, altRel sylAlts d u v c := by
  constructor
  · rintro ⟨e, he, ht⟩
    exact ⟨[e.val], e, he, ht, [e.val], List.mem_singleton.mpr rfl, SylString.eq_refl _⟩
  · rintro ⟨c, e, he, ht, -⟩
    exact ⟨e, he, ht⟩

private theorem arrow_mem {d : PronunDAG} (u v : Int) : Arrow d u v ↔ (u, v) ∈ d.mFrom.map fun e => (e.key, e.target) := by
  rw [List.mem_map]
  constructor
  · rintro ⟨e, he, rfl⟩
    obtain ⟨h1, rfl⟩ := DAG.mem_outEdges.mp he
    exact ⟨e, h1, rfl⟩
  · rintro ⟨e, he, h⟩
    cases h
    exact ⟨e, DAG.mem_outEdges.mpr ⟨he, rfl⟩, rfl⟩

/-- C18: on a graph that has a ring, grouping always has undefined behaviour, whatever else the graph contains and
whatever the syllables are. -/
theorem C18_ring (d : PronunDAG) (hb : Built d) (L : Int → Prop) (hL : RingPart d L) : PronunDAG.fracDAG d = .ub := by
  obtain ⟨hc0, _, hs0, _⟩ := toFrac_spec d
  rw [fracDAG_ub_iff]
  refine FracDAG.loop_ring _ d.toFrac hc0 hs0 (Nat.lt_succ_self _) (L := L) ?_
  rw [rel_toFrac]
  exact (ring_iff hb L).mp hL

example : ∃ L, RingPart beside L :=
  ⟨fun v => v ∈ [2, 3, 4], ⟨2, by decide⟩, fun v hv => by
    have h : ∀ v ∈ [(2 : Int), 3, 4], (beside.outEdges v).length = 1 ∧ (∀ e ∈ beside.outEdges v, e.target ∈ [(2 : Int), 3, 4]) ∧
      (beside.inEdges v).length = 1 ∧ ∀ e ∈ beside.inEdges v, e.target ∈ [(2 : Int), 3, 4] := by decide
    obtain ⟨h1, h2, h3, h4⟩ := h v hv
    obtain ⟨e, he⟩ := List.length_eq_one_iff.mp h1
    obtain ⟨e', he'⟩ := List.length_eq_one_iff.mp h3
    exact ⟨⟨e, he, h2 e (by simp [he])⟩, e', he', h4 e' (by simp [he'])⟩⟩

/-- C18: grouping returns normally unless the graph has a part that is cut off from the rest and has neither beginning nor
end. So it returns normally on every graph, cyclic or not, each of whose nodes is connected with a node without incoming
edges or a node without outgoing edges. -/
theorem C18_returns_endless (d : PronunDAG) (h : ¬ ∃ L, Endless d L) : ∃ f, PronunDAG.fracDAG d = .ok f := by
  obtain ⟨hc0, _, hs0, _⟩ := toFrac_spec d
  rcases C18_terminates d with k | k
  · exact k
  · exfalso
    rw [fracDAG_ub_iff] at k
    obtain ⟨L, h1, h2⟩ := FracDAG.loop_endless _ d.toFrac hc0 hs0 (Nat.lt_succ_self _) k
    rw [rel_toFrac] at h2
    refine h ⟨L, h1, fun v hv => ?_⟩
    obtain ⟨⟨x, k1⟩, ⟨u, k2⟩, k3, k4⟩ := h2 v hv
    exact ⟨⟨x, (arrow_iff v x).mpr k1⟩, ⟨u, (arrow_iff u v).mpr k2⟩,
      fun y hy => by obtain ⟨c, hc⟩ := (arrow_iff v y).mp hy; exact k3 y c hc,
      fun y hy => by obtain ⟨c, hc⟩ := (arrow_iff y v).mp hy; exact k4 y c hc⟩

/-- On a graph with a cycle the hypothesis can hold. -/
example : (¬ ∃ L, Endless passed L) ∧ ¬ Acyclic passed := by
  have hA : ∀ u v, Arrow passed u v ↔ (u, v) ∈ [((0 : Int), (2 : Int)), (2, 3), (3, 4), (4, 2), (4, 9)] := by
    intro u v
    rw [arrow_mem, (by decide : passed.mFrom.map (fun e => (e.key, e.target)) = [(0, 2), (2, 3), (3, 4), (4, 2), (4, 9)])]
  constructor
  · rintro ⟨L, ⟨v, hv⟩, h⟩
    obtain ⟨⟨x, hx⟩, -, -, -⟩ := h v hv
    have h0 : L 0 → False := fun k => by
      obtain ⟨-, ⟨u, hu⟩, -, -⟩ := h 0 k
      rw [hA] at hu; simp at hu
    have h2 : L 2 → False := fun k => h0 ((h 2 k).2.2.2 0 ((hA _ _).mpr (by decide)))
    have h4 : L 4 → False := fun k => h2 ((h 4 k).2.2.1 2 ((hA _ _).mpr (by decide)))
    have h3 : L 3 → False := fun k => h4 ((h 3 k).2.2.1 4 ((hA _ _).mpr (by decide)))
    rw [hA] at hx
    simp only [List.mem_cons, Prod.mk.injEq, List.not_mem_nil, or_false] at hx
    rcases hx with ⟨rfl, -⟩ | ⟨rfl, -⟩ | ⟨rfl, -⟩ | ⟨rfl, -⟩ | ⟨rfl, -⟩
    · exact h0 hv
    · exact h2 hv
    · exact h3 hv
    · exact h4 hv
    · exact h4 hv
  · intro h
    exact h 2 (.head ((hA _ _).mpr (by decide)) (.head ((hA 3 4).mpr (by decide)) (.single ((hA 4 2).mpr (by decide)))))

/-- C18, exactly: if the syllables on the edges of a node tell the edges apart, grouping returns normally if and only if the
graph has no ring. (For other graphs `C18_ring` and `C18_returns_endless` bound the condition from both sides;
`C18_between` shows that neither is exact.) -/
theorem C18_exact (d : PronunDAG) (hb : Built d) (hd : Unequivocal d) :
    (∃ f, PronunDAG.fracDAG d = .ok f) ↔ ¬ ∃ L, RingPart d L := by
  obtain ⟨hc0, _, hs0, _⟩ := toFrac_spec d
  constructor
  · rintro ⟨f, hf⟩ ⟨L, hL⟩
    rw [C18_ring d hb L hL] at hf
    cases hf
  · intro h
    rcases C18_terminates d with k | k
    · exact k
    · exfalso
      rw [fracDAG_ub_iff] at k
      have hu : UnequivocalR (altRel PronunFrac.alts d.toFrac) := by
        rw [rel_toFrac]
        intro v x y c c' k1 k2
        obtain ⟨e, he, ht, b, hbm, hs⟩ := k1
        obtain ⟨e', he', ht', b', hbm', hs'⟩ := k2
        cases List.mem_singleton.mp hbm
        cases List.mem_singleton.mp hbm'
        rw [SylString.eq_iff] at hs hs'
        cases hs with
        | cons g1 _ =>
          cases hs' with
          | cons g2 _ =>
            refine ⟨_, _, _, _, rfl, rfl, fun g => ?_⟩
            rw [← ht, ← ht']
            exact hd v e he e' he' (LawfulCppEq.trans g1 (LawfulCppEq.trans g (LawfulCppEq.symm g2)))
      obtain ⟨L, hL⟩ := FracDAG.loop_exact _ d.toFrac hc0 hs0 (Nat.lt_succ_self _) hu k
      rw [rel_toFrac] at hL
      exact h ⟨L, (ring_iff hb L).mpr hL⟩

example : Built beside ∧ Built passed ∧ Built (eye VW.A VW.E) := ⟨graph_built _, graph_built _, graph_built _⟩

private theorem unequivocal_of {d : PronunDAG} (h : ∀ e ∈ d.mFrom, ∀ e' ∈ d.mFrom, e.key = e'.key → ceq e.val e'.val = true →
    e.target = e'.target) : Unequivocal d := by
  intro u e he e' he' hc
  obtain ⟨h1, h2⟩ := DAG.mem_outEdges.mp he
  obtain ⟨h3, h4⟩ := DAG.mem_outEdges.mp he'
  exact h e h1 e' h3 (h2.trans h4.symm) hc

example : Unequivocal beside ∧ Unequivocal passed ∧ Unequivocal (eye VW.A VW.E) :=
  ⟨unequivocal_of (by decide), unequivocal_of (by decide), unequivocal_of (by decide)⟩

/-- Neither condition is exact for all graphs: two ways of the same syllables are merged into one while grouping, so that a
graph without ring may have undefined behaviour; and the same graph with different syllables, which like it has a part
without beginning and end, has not. -/
theorem C18_between :
    (∃ d : PronunDAG, Built d ∧ (¬ ∃ L, RingPart d L) ∧ PronunDAG.fracDAG d = .ub) ∧
    ∃ d : PronunDAG, Built d ∧ (∃ L, Endless d L) ∧ ∃ f, PronunDAG.fracDAG d = .ok f := by
  constructor
  · refine ⟨eye VW.A VW.A, graph_built _, ?_, by decide⟩
    rintro ⟨L, ⟨v, hv⟩, h⟩
    have h0 : L 0 → False := fun k => by
      obtain ⟨⟨e, he, -⟩, -⟩ := h 0 k
      have : ((eye VW.A VW.A).outEdges 0).length = 2 := by decide
      rw [he] at this; cases this
    have h3 : L 3 → False := fun k => by
      obtain ⟨⟨e, he, hl⟩, -⟩ := h 3 k
      have : ((eye VW.A VW.A).outEdges 3).map (·.target) = [0] := by decide
      rw [he] at this
      exact h0 ((List.cons.inj this).1 ▸ hl)
    have h1 : ∀ w ∈ [(1 : Int), 2], L w → False := fun w hw k => by
      obtain ⟨⟨e, he, hl⟩, -⟩ := h w k
      have : ∀ w ∈ [(1 : Int), 2], ((eye VW.A VW.A).outEdges w).map (·.target) = [3] := by decide
      have := this w hw
      rw [he] at this
      exact h3 ((List.cons.inj this).1 ▸ hl)
    obtain ⟨⟨e, he, -⟩, -⟩ := h v hv
    have hm := DAG.mem_outEdges.mp (he ▸ List.mem_singleton.mpr rfl : e ∈ (eye VW.A VW.A).outEdges v)
    have : ∀ e ∈ (eye VW.A VW.A).mFrom, e.key = 0 ∨ e.key = 3 ∨ e.key ∈ [(1 : Int), 2] := by decide
    rcases this e hm.1 with k | k | k <;> rw [hm.2] at k
    · exact h0 (k ▸ hv)
    · exact h3 (k ▸ hv)
    · exact h1 v k hv
  · refine ⟨eye VW.A VW.E, graph_built _, ⟨fun v => v ∈ [(0 : Int), 1, 2, 3], ⟨0, by decide⟩, fun v hv => ?_⟩, ?_⟩
    · have hA : ∀ u v, Arrow (eye VW.A VW.E) u v ↔ (u, v) ∈ [((0 : Int), (1 : Int)), (0, 2), (1, 3), (2, 3), (3, 0)] := by
        intro u v
        rw [arrow_mem, (by decide : (eye VW.A VW.E).mFrom.map (fun e => (e.key, e.target)) =
          [(0, 1), (0, 2), (1, 3), (2, 3), (3, 0)])]
      have h1 : ∀ v ∈ [(0 : Int), 1, 2, 3], (∃ p ∈ [((0 : Int), (1 : Int)), (0, 2), (1, 3), (2, 3), (3, 0)], p.1 = v) ∧
          ∃ p ∈ [((0 : Int), (1 : Int)), (0, 2), (1, 3), (2, 3), (3, 0)], p.2 = v := by decide
      have h2 : ∀ p ∈ [((0 : Int), (1 : Int)), (0, 2), (1, 3), (2, 3), (3, 0)], p.1 ∈ [(0 : Int), 1, 2, 3] ∧
          p.2 ∈ [(0 : Int), 1, 2, 3] := by decide
      obtain ⟨⟨p, k1, rfl⟩, q, k2, hq⟩ := h1 v hv
      exact ⟨⟨p.2, (hA _ _).mpr k1⟩, ⟨q.1, (hA _ _).mpr (hq ▸ k2)⟩, fun x hx => (h2 _ ((hA _ _).mp hx)).2,
        fun x hx => (h2 _ ((hA _ _).mp hx)).1⟩
    · rcases C18_terminates (eye VW.A VW.E) with k | k
      · exact k
      · exact absurd k (by decide)

/-- C84, exactly: on a graph the syllables of whose edges tell the edges of a node apart, grouping uses no invalid iterator if
and only if the graph has no ring. -/
theorem C84_ring (i : IDag Syl) (d : PronunDAG) (h : RepD i d) (hb : Built d) (hd : Unequivocal d) :
    (∃ g, IFrac.fracDAG i = .ok g) ↔ ¬ ∃ L, RingPart d L := by
  rw [← C18_exact d hb hd]
  have hal := C84_exact i d h
  generalize IFrac.fracDAG i = r at hal ⊢
  generalize PronunDAG.fracDAG d = r' at hal ⊢
  cases hal with
  | ok hr => exact iff_of_true ⟨_, rfl⟩ ⟨_, rfl⟩
  | _ => exact iff_of_false (fun ⟨_, k⟩ => by cases k) (fun ⟨_, k⟩ => by cases k)

/-- C84: on every graph without a part that is cut off from the rest and has neither beginning nor end. -/
theorem C84_endless (i : IDag Syl) (d : PronunDAG) (h : RepD i d) (hn : ¬ ∃ L, Endless d L) :
    ∃ g f, IFrac.fracDAG i = .ok g ∧ PronunDAG.fracDAG d = .ok f ∧ RepD g f := by
  obtain ⟨f, hf⟩ := C18_returns_endless d hn
  have hal := C84_exact i d h
  rw [hf] at hal
  generalize IFrac.fracDAG i = r at hal ⊢
  cases hal with
  | ok hr => exact ⟨_, f, rfl, hf, hr⟩

end Thpronun
