import Verif.Lemmas.FracAlts
import Verif.Spec.Compact

/-! # Grouping as a code: every reading of the lattice is a path of the graph, and is denoted once -/

namespace Thpronun
open Spec

/-- The syllables `a` lead from `u` to `v`. -/
inductive Way (d : PronunDAG) : Int → SylString → Int → Prop
  | one {u : Int} {e : Entry Syl} : e ∈ d.outEdges u → Way d u [e.val] e.target
  | more {u v : Int} {e : Entry Syl} {a : SylString} : e ∈ d.outEdges u → Way d e.target a v → Way d u (e.val :: a) v

namespace Way
variable {d : PronunDAG} {u v x : Int} {a b : SylString}

theorem append (h : Way d u a v) (h' : Way d v b x) : Way d u (a ++ b) x := by
  induction h with
  | one h => exact .more h h'
  | more h _ ih => exact .more h (ih h')

theorem last (hend : ∀ e ∈ d.mFrom, e.val.endPos = e.target) (h : Way d u a v) : ∃ a' s, a = a' ++ [s] ∧ s.endPos = v := by
  induction h with
  | one h => exact ⟨[], _, rfl, hend _ (DAG.mem_outEdges.mp h).1⟩
  | @more u v e a h _ ih =>
    obtain ⟨a', s, rfl, h⟩ := ih
    exact ⟨e.val :: a', s, rfl, h⟩

/-- A way and a maximal path behind it make a maximal path. -/
theorem maxPath (h : Way d u a v) {p : List (Entry Syl)} (hp : MaxPath d v p) :
    ∃ q, MaxPath d u q ∧ q.map Entry.val = a ++ p.map Entry.val := by
  induction h with
  | one h => exact ⟨_, .step h hp, rfl⟩
  | more h _ ih =>
    obtain ⟨q, h1, h2⟩ := ih hp
    exact ⟨_, .step h h1, by rw [List.map_cons, h2]; rfl⟩

theorem maxPath_leaf (h : Way d u a v) (hv : d.outEdges v = []) : ∃ q, MaxPath d u q ∧ q.map Entry.val = a := by
  induction h with
  | one h => exact ⟨_, .last h hv, rfl⟩
  | more h _ ih =>
    obtain ⟨q, h1, h2⟩ := ih hv
    exact ⟨_, .step h h1, by rw [List.map_cons, h2]⟩

end Way

/-- What holds while the graph `d0` is grouped. -/
structure Tidy (d0 : PronunDAG) (d : FracDAG) : Prop where
  /-- every alternative is a way in the original graph -/
  way : ∀ e ∈ d.mFrom, ∀ a ∈ e.val.alts, Way d0 e.key a e.target
  /-- the nodes inside of it are no longer there -/
  inner : ∀ e ∈ d.mFrom, ∀ a ∈ e.val.alts, ∀ x ∈ a.dropLast, ∀ e' ∈ d.mFrom, e'.key ≠ x.endPos ∧ e'.target ≠ x.endPos
  /-- the ends are ends of the original graph -/
  leaf : ∀ v, (v = 0 ∨ ∃ u, Arrow d u v) → (∃ x, Arrow d0 v x) → ∃ y, Arrow d v y
  root : ∀ u, ¬ Arrow d u 0
  alts : ∀ e ∈ d.mFrom, e.val.alts.Nodup ∧ e.val.alts ≠ []

variable {d0 : PronunDAG}

theorem tidy_toFrac (hroot : ∀ u, ¬ Arrow d0 u 0) : Tidy d0 d0.toFrac := by
  obtain ⟨h1, h2, h3⟩ := toFrac_foldl d0.mFrom DAG.empty DAG.Coh.empty
  have hm : ∀ e ∈ d0.toFrac.mFrom, ∃ x ∈ d0.mFrom, e = ⟨x.key, x.target, PronunFrac.single x.target [x.val]⟩ := by
    intro e he
    rcases h3 e he with h | h
    · simp [DAG.empty] at h
    · exact h
  obtain ⟨-, -, -, har⟩ := toFrac_spec d0
  have ha : ∀ e ∈ d0.toFrac.mFrom, ∃ x ∈ d0.mFrom, e.key = x.key ∧ e.target = x.target ∧ e.val.alts = [[x.val]] := by
    intro e he
    obtain ⟨x, hx, rfl⟩ := hm e he
    exact ⟨x, hx, rfl, rfl, rfl⟩
  refine ⟨fun e he a h => ?_, fun e he a h x hx => ?_, fun v _ ⟨x, hx⟩ => ⟨x, (har v x).mpr hx⟩,
    fun u h => hroot u ((har u 0).mp h), fun e he => ?_⟩
  · obtain ⟨x, hx, hk, ht, hv⟩ := ha e he
    rw [hv, List.mem_singleton] at h
    subst h
    rw [hk, ht]
    exact .one (DAG.mem_outEdges.mpr ⟨hx, rfl⟩)
  · obtain ⟨y, hy, hk, ht, hv⟩ := ha e he
    rw [hv, List.mem_singleton] at h
    subst h
    cases hx
  · obtain ⟨y, hy, hk, ht, hv⟩ := ha e he
    rw [hv]
    simp

namespace FracDAG

/-- The edges after a step: old ones, and the merged one. -/
theorem mem_mergeAt {d d' : FracDAG} {it e : Entry PronunFrac} (h : mergeAt d it = .ok d') (he : e ∈ d'.mFrom) :
    e ∈ d.mFrom ∨ ∃ inIt ∈ d.inEdges it.key, ∃ a ∈ inIt.val.alts, ∃ b ∈ it.val.alts,
      e = ⟨inIt.target, it.target, PronunFrac.single it.target (a ++ b)⟩ := by
  unfold mergeAt at h
  cases hin : d.inEdges it.key with
  | nil => rw [hin] at h; cases h
  | cons inIt l =>
    rw [hin] at h
    dsimp only at h
    cases ha : inIt.val.alts with
    | nil => rw [ha] at h; cases h
    | cons a as =>
      cases hb : it.val.alts with
      | nil => rw [ha, hb] at h; cases h
      | cons b bs =>
        rw [ha, hb] at h
        dsimp only at h
        split at h
        · cases h
        · cases h
          unfold DAG.addEdge at he
          have hold : e ∈ ((d.removeEdge inIt.target it.key inIt.val).1.removeEdge it.key it.target it.val).1.mFrom → e ∈ d.mFrom :=
            fun h => List.mem_of_mem_eraseP (List.mem_of_mem_eraseP h)
          split at he
          · exact .inl (hold he)
          · rcases DAG.mem_mmEmplace.mp he with rfl | he
            · exact .inr ⟨inIt, List.mem_cons_self .., a, by rw [ha]; exact List.mem_cons_self .., b,
                List.mem_cons_self .., rfl⟩
            · exact .inl (hold he)

end FracDAG

section
variable (hend : ∀ e ∈ d0.mFrom, e.val.endPos = e.target)
include hend

theorem Tidy.mergeAt {d d' : FracDAG} (hc : DAG.Coh d) (hs : Singles d) (T : Tidy d0 d) {it : Entry PronunFrac} (hit : it ∈ d.mFrom)
    (hp : FracDAG.isPass d it = true) (hself : it.target ≠ it.key) (h : FracDAG.mergeAt d it = .ok d') : Tidy d0 d' := by
  obtain ⟨d1, u, a, b, h1, h2, h3, h4, h5, h6, h7, h8, h9, h10, h11⟩ := FracDAG.mergeAt_spec hc hs it hit hp hself
  rw [h] at h1
  cases h1
  have hn0 : it.key ≠ 0 := fun h => T.root u (h ▸ h6)
  have arr : ∀ e ∈ d'.mFrom, Arrow d' e.key e.target := fun e he => ⟨e, DAG.mem_outEdges.mpr ⟨he, rfl⟩, rfl⟩
  -- the node has gone
  have gone : ∀ e ∈ d'.mFrom, e.key ≠ it.key ∧ e.target ≠ it.key := by
    intro e he
    rcases h11 _ _ (arr e he) with ⟨-, k⟩ | ⟨k1, k2⟩
    · exact k
    · rw [k1, k2]; exact ⟨h5, hself⟩
  -- every node was there before
  have old : ∀ e ∈ d'.mFrom, ∀ x, (∀ e' ∈ d.mFrom, e'.key ≠ x ∧ e'.target ≠ x) → e.key ≠ x ∧ e.target ≠ x := by
    intro e he x hx
    rcases h11 _ _ (arr e he) with ⟨⟨e', k1, k2⟩, -⟩ | ⟨k1, k2⟩
    · obtain ⟨m1, m2⟩ := DAG.mem_outEdges.mp k1
      rw [← k2, ← m2]; exact hx e' m1
    · obtain ⟨e', m1, m2⟩ := h6
      obtain ⟨m3, m4⟩ := DAG.mem_outEdges.mp m1
      rw [k1, k2, ← m4]
      exact ⟨(hx e' m3).1, (hx it hit).2⟩
  have inn : ∀ inIt ∈ d.inEdges it.key, (⟨inIt.target, it.key, inIt.val⟩ : Entry PronunFrac) ∈ d.mFrom := by
    intro inIt hin
    obtain ⟨m1, m2⟩ := DAG.mem_inEdges.mp hin
    rw [← m2]
    exact hc.mem_swap.mp m1
  refine ⟨fun e he => ?_, fun e he => ?_, fun v hv hx => ?_, fun w hw => ?_, fun e he => ?_⟩
  · rcases FracDAG.mem_mergeAt h he with k | ⟨inIt, hin, a', ha, b', hb, rfl⟩
    · exact T.way e k
    · intro x hx
      rw [single_alts, List.mem_singleton] at hx
      subst hx
      exact (T.way _ (inn inIt hin) a' ha).append (T.way it hit b' hb)
  · rcases FracDAG.mem_mergeAt h he with k | ⟨inIt, hin, a', ha, b', hb, rfl⟩
    · exact fun x hx y hy e' he' => old e' he' _ fun e'' he'' => T.inner e k x hx y hy e'' he''
    · intro x hx y hy e' he'
      rw [single_alts, List.mem_singleton] at hx
      subst hx
      obtain ⟨b1, s1, rfl, -⟩ := (T.way it hit b' hb).last hend
      obtain ⟨a1, s, rfl, hs⟩ := (T.way _ (inn inIt hin) a' ha).last hend
      rw [← List.append_assoc, List.dropLast_concat, List.mem_append, List.mem_append, List.mem_singleton] at hy
      rcases hy with (hy | rfl) | hy
      · exact old e' he' _ fun e'' he'' => T.inner _ (inn inIt hin) _ ha y (by rw [List.dropLast_concat]; exact hy) e'' he''
      · rw [hs]; exact gone e' he'
      · exact old e' he' _ fun e'' he'' => T.inner it hit _ hb y (by rw [List.dropLast_concat]; exact hy) e'' he''
  · have hvk : v ≠ it.key ∧ (v = 0 ∨ ∃ u, Arrow d u v) := by
      rcases hv with rfl | ⟨w, hw⟩
      · exact ⟨hn0.symm, .inl rfl⟩
      · rcases h11 _ _ hw with ⟨k, -, k'⟩ | ⟨rfl, rfl⟩
        · exact ⟨k', .inr ⟨w, k⟩⟩
        · exact ⟨hself, .inr ⟨_, h7⟩⟩
    obtain ⟨y, e, m1, rfl⟩ := T.leaf v hvk.2 hx
    have ofRel : ∀ {x y c}, altRel PronunFrac.alts d' x y c → Arrow d' x y := fun ⟨e, k1, k2, _⟩ => ⟨e, k1, k2⟩
    obtain ⟨c, hc'⟩ := List.exists_mem_of_ne_nil _ (T.alts e (DAG.mem_outEdges.mp m1).1).2
    have rel : altRel PronunFrac.alts d v e.target c := ⟨e, m1, rfl, c, hc', SylString.eq_refl c⟩
    by_cases hy : e.target = it.key
    · rw [hy] at rel
      obtain ⟨rfl, -⟩ := (h8 v c).mp rel
      exact ⟨it.target, ofRel ((h10 v it.target (a ++ b)).mpr (.inr ⟨rfl, rfl, SylString.eq_refl _⟩))⟩
    · exact ⟨e.target, ofRel ((h10 v e.target c).mpr (.inl ⟨rel, hvk.1, hy⟩))⟩
  · rcases h11 w 0 hw with ⟨k, -⟩ | ⟨-, k⟩
    · exact T.root w k
    · exact T.root it.key (k ▸ h7)
  · obtain ⟨x, hx⟩ := List.length_eq_one_iff.mp (h3 e he).1
    rw [hx]
    simp

theorem tidy_singles (fuel : Nat) {d d' : FracDAG} (hc : DAG.Coh d) (hs : Singles d) (T : Tidy d0 d)
    (ha : Acyclic d) (h : FracDAG.mergeSinglesLoop fuel d = .ok d') : Tidy d0 d' := by
  induction fuel generalizing d with
  | zero => cases h
  | succ fuel ih =>
    rw [FracDAG.mergeSinglesLoop] at h
    cases hfind : d.mFrom.find? (FracDAG.isPass d) with
    | none => rw [hfind] at h; cases h; exact T
    | some it =>
      rw [hfind] at h
      have hit := List.mem_of_find?_eq_some hfind
      have hp := List.find?_some hfind
      have hself : it.target ≠ it.key := fun h => ha it.key (.single ⟨it, DAG.mem_outEdges.mpr ⟨hit, rfl⟩, h⟩)
      obtain ⟨d1, u, a, b, h1, h2, h3, h4, h5, h6, h7, h8, h9, h10, h11⟩ := FracDAG.mergeAt_spec hc hs it hit hp hself
      dsimp only at h
      rw [h1, Res.ok_bind] at h
      refine ih h2 h3 (T.mergeAt hend hc hs hit hp hself h1) ?_ h
      exact FracDAG.acyclic_of_sub (d := d) (fun x y hxy => by
        rcases h11 x y hxy with ⟨h, _⟩ | ⟨rfl, rfl⟩
        · exact .single h
        · exact .tail (.single h6) h7) ha

omit hend in
theorem foldl_addFrac_mem (l : List (Entry PronunFrac)) (f : PronunFrac) (hf : f.alts.Pairwise fun a b => SylString.lt a b = true) :
    ((l.foldl (fun f x => f.addFrac x.val) f).alts.Pairwise fun a b => SylString.lt a b = true) ∧
    ∀ a ∈ (l.foldl (fun f x => f.addFrac x.val) f).alts, a ∈ f.alts ∨ ∃ x ∈ l, a ∈ x.val.alts := by
  induction l generalizing f with
  | nil => exact ⟨hf, fun a h => .inl h⟩
  | cons x l ih =>
    rw [List.foldl_cons]
    obtain ⟨h1, h2⟩ := ih (f.addFrac x.val) (by rw [PronunFrac.addFrac_alts]; exact PronunFrac.foldl_strict hf)
    refine ⟨h1, fun a ha => ?_⟩
    rcases h2 a ha with h | ⟨y, hy, h⟩
    · rw [PronunFrac.addFrac_alts] at h
      rcases PronunFrac.mem_foldl h with h | h
      · exact .inl h
      · exact .inr ⟨x, List.mem_cons_self .., h⟩
    · exact .inr ⟨y, List.mem_cons_of_mem _ hy, h⟩

omit hend in
theorem tidy_parAt {d : FracDAG} (T : Tidy d0 d) {it : Entry PronunFrac} (hit : it ∈ d.mFrom) :
    Tidy d0 (FracDAG.mergeParAt d it) := by
  obtain ⟨k1, k2⟩ := foldl_addFrac_mem (FracDAG.parallels d it.key it.target) PronunFrac.empty .nil
  have hm : ∀ a ∈ (FracDAG.mergedFrac d it).alts, ∃ x ∈ d.mFrom, x.key = it.key ∧ x.target = it.target ∧ a ∈ x.val.alts := by
    intro a ha
    rcases k2 a ha with h | ⟨x, hx, h⟩
    · cases h
    · obtain ⟨m1, m2, m3⟩ := FracDAG.mem_parallels.mp hx
      exact ⟨x, m1, m2, m3, h⟩
  have har : ∀ u v, Arrow (FracDAG.mergeParAt d it) u v ↔ Arrow d u v := by
    intro u v
    constructor
    · intro h
      obtain ⟨f, hf⟩ := FracDAG.edge_of_arrow h
      rcases (FracDAG.edge_mergeParAt it).mp hf with ⟨h, _⟩ | ⟨rfl, rfl, _⟩
      · exact FracDAG.arrow_of_edge h
      · exact ⟨it, DAG.mem_outEdges.mpr ⟨hit, rfl⟩, rfl⟩
    · intro h
      obtain ⟨f, hf⟩ := FracDAG.edge_of_arrow h
      by_cases hx : u = it.key ∧ v = it.target
      · exact FracDAG.arrow_of_edge ((FracDAG.edge_mergeParAt it).mpr (.inr ⟨hx.1, hx.2, LawfulCppEq.refl _⟩))
      · exact FracDAG.arrow_of_edge ((FracDAG.edge_mergeParAt it).mpr (.inl ⟨hf, hx⟩))
  have hmem : ∀ e ∈ (FracDAG.mergeParAt d it).mFrom, e = ⟨it.key, it.target, FracDAG.mergedFrac d it⟩ ∨ e ∈ d.mFrom := by
    intro e he
    rw [FracDAG.mergeParAt_mFrom] at he
    exact (DAG.mem_mmEmplace.mp he).imp_right fun h => (List.mem_filter.mp h).1
  have old : ∀ e ∈ (FracDAG.mergeParAt d it).mFrom, ∀ x, (∀ e' ∈ d.mFrom, e'.key ≠ x ∧ e'.target ≠ x) →
      e.key ≠ x ∧ e.target ≠ x := by
    intro e he x hx
    rcases hmem e he with rfl | h
    · exact hx it hit
    · exact hx e h
  refine ⟨fun e he => ?_, fun e he => ?_, fun v hv hx => ?_, fun u hu => T.root u ((har u 0).mp hu), fun e he => ?_⟩
  · rcases hmem e he with rfl | h
    · intro a ha
      obtain ⟨x, m1, m2, m3, m4⟩ := hm a ha
      dsimp only
      rw [← m2, ← m3]
      exact T.way x m1 a m4
    · exact T.way e h
  · rcases hmem e he with rfl | h
    · intro a ha y hy e' he'
      obtain ⟨x, m1, m2, m3, m4⟩ := hm a ha
      exact old e' he' _ fun e'' he'' => T.inner x m1 a m4 y hy e'' he''
    · exact fun a ha y hy e' he' => old e' he' _ fun e'' he'' => T.inner e h a ha y hy e'' he''
  · simp only [har] at hv ⊢
    exact T.leaf v hv hx
  · rcases hmem e he with rfl | h
    · refine ⟨k1.imp fun {a b} hab he => ?_, ?_⟩
      · subst he
        rw [SylString.lt_iff] at hab
        exact absurd hab (lt_irrefl _)
      · obtain ⟨a, ha⟩ := List.exists_mem_of_ne_nil _ (T.alts it hit).2
        obtain ⟨b, hb, -⟩ := (FracDAG.mergedFrac_alts (d := d) it a).mpr
          ⟨it, DAG.mem_outEdges.mpr ⟨hit, rfl⟩, rfl, a, ha, SylString.eq_refl a⟩
        exact List.ne_nil_of_mem hb
    · exact T.alts e h

omit hend in
theorem tidy_parallels (fuel skip : Nat) {d d' : FracDAG} (T : Tidy d0 d)
    (h : FracDAG.mergeParallelsLoop fuel skip d = .ok d') : Tidy d0 d' := by
  induction fuel generalizing d skip with
  | zero => cases h
  | succ fuel ih =>
    rw [FracDAG.mergeParallelsLoop] at h
    cases hfind : (d.mFrom.drop skip).find? (FracDAG.isParallel d) with
    | none => rw [hfind] at h; cases h; exact T
    | some it =>
      rw [hfind] at h
      exact ih 1 (tidy_parAt T (List.mem_of_mem_drop (List.mem_of_find?_eq_some hfind))) h

/-! ## Reading the code -/

/-- No alternative begins with another one. -/
theorem Tidy.prefix {d : FracDAG} (T : Tidy d0 d) {e1 e2 : Entry PronunFrac} (h1 : e1 ∈ d.mFrom) (h2 : e2 ∈ d.mFrom)
    {a1 a2 s1 s2 : SylString} (m1 : a1 ∈ e1.val.alts) (m2 : a2 ∈ e2.val.alts) (h : a1 ++ s1 = a2 ++ s2) : a1 = a2 := by
  have key : ∀ {e1 e2 : Entry PronunFrac} {a1 a2 c : SylString}, e1 ∈ d.mFrom → e2 ∈ d.mFrom → a1 ∈ e1.val.alts →
      a2 ∈ e2.val.alts → a2 = a1 ++ c → c = [] := by
    rintro e1 e2 a1 a2 c h1 h2 m1 m2 rfl
    by_contra hc
    obtain ⟨a', s, rfl, hs⟩ := (T.way e1 h1 a1 m1).last hend
    refine (T.inner e2 h2 _ m2 s ?_ e1 h1).2 hs.symm
    rw [List.dropLast_append_of_ne_nil hc]
    simp
  rcases List.append_eq_append_iff.mp h with ⟨c, hc, -⟩ | ⟨c, hc, -⟩
  · rw [hc, key h1 h2 m1 m2 hc, List.append_nil]
  · rw [hc, key h2 h1 m2 m1 hc, List.append_nil]

omit hend in
theorem mem_expand_cons {f : PronunFrac} {c : PronunChain} {t : SylString} :
    t ∈ expand (f :: c) ↔ ∃ a ∈ f.alts, ∃ s ∈ expand c, t = a ++ s := by
  rw [expand, List.mem_flatMap]
  simp only [List.mem_map, eq_comm]

theorem Tidy.nodup_expand {d : FracDAG} (T : Tidy d0 d) (q : List (Entry PronunFrac)) (hq : ∀ e ∈ q, e ∈ d.mFrom) :
    (expand (q.map Entry.val)).Nodup := by
  induction q with
  | nil => simp [expand]
  | cons e q ih =>
    rw [List.map_cons, expand, List.nodup_flatMap]
    have he := hq e (List.mem_cons_self ..)
    refine ⟨fun a _ => (ih fun e he => hq e (List.mem_cons_of_mem _ he)).map fun x y h => List.append_cancel_left h, ?_⟩
    refine (T.alts e he).1.imp_of_mem fun {a b} ha hb hab => ?_
    intro t h1 h2
    obtain ⟨s1, -, rfl⟩ := List.mem_map.mp h1
    obtain ⟨s2, -, h⟩ := List.mem_map.mp h2
    exact hab (T.prefix hend he he ha hb h.symm)

/-- No alternative goes through the nodes of another one and then further. -/
theorem Tidy.prefix_ends {d : FracDAG} (T : Tidy d0 d) {e1 e2 : Entry PronunFrac} (h1 : e1 ∈ d.mFrom) (h2 : e2 ∈ d.mFrom)
    {a1 a2 s1 s2 : SylString} (m1 : a1 ∈ e1.val.alts) (m2 : a2 ∈ e2.val.alts)
    (h : (a1 ++ s1).map Syl.endPos = (a2 ++ s2).map Syl.endPos) : a1.map Syl.endPos = a2.map Syl.endPos := by
  have key : ∀ {e1 e2 : Entry PronunFrac} {a1 a2 : SylString} {c : List Int}, e1 ∈ d.mFrom → e2 ∈ d.mFrom → a1 ∈ e1.val.alts →
      a2 ∈ e2.val.alts → a2.map Syl.endPos = a1.map Syl.endPos ++ c → c = [] := by
    intro e1 e2 a1 a2 c h1 h2 m1 m2 h
    by_contra hc
    obtain ⟨a', s, rfl, hs⟩ := (T.way e1 h1 a1 m1).last hend
    have hm : s.endPos ∈ (a2.map Syl.endPos).dropLast := by
      rw [h, List.dropLast_append_of_ne_nil hc]
      simp
    rw [← List.map_dropLast] at hm
    obtain ⟨x, hx, hxe⟩ := List.mem_map.mp hm
    exact (T.inner e2 h2 _ m2 x hx e1 h1).2 (by rw [hxe, hs])
  rw [List.map_append, List.map_append] at h
  rcases List.append_eq_append_iff.mp h with ⟨c, hc, -⟩ | ⟨c, hc, -⟩
  · rw [hc, key h1 h2 m1 m2 hc, List.append_nil]
  · rw [hc, key h2 h1 m2 m1 hc, List.append_nil]

/-- Two paths with readings through the same nodes are the same. -/
theorem Tidy.same_ends {d : FracDAG} (T : Tidy d0 d) (hp : ∀ u v, (FracDAG.parallels d u v).length ≤ 1) {n : Int}
    {q1 q2 : List (Entry PronunFrac)} (h1 : MaxPath d n q1) (h2 : MaxPath d n q2) {t1 t2 : SylString}
    (m1 : t1 ∈ expand (q1.map Entry.val)) (m2 : t2 ∈ expand (q2.map Entry.val)) (ht : t1.map Syl.endPos = t2.map Syl.endPos) :
    q1 = q2 := by
  have head : ∀ {n : Int} {e1 e2 : Entry PronunFrac} {c1 c2 : PronunChain} {t1 t2 : SylString}, e1 ∈ d.outEdges n → e2 ∈ d.outEdges n →
      t1 ∈ expand (e1.val :: c1) → t2 ∈ expand (e2.val :: c2) → t1.map Syl.endPos = t2.map Syl.endPos →
      e1 = e2 ∧ ∃ s1 s2, s1 ∈ expand c1 ∧ s2 ∈ expand c2 ∧ s1.map Syl.endPos = s2.map Syl.endPos := by
    intro n e1 e2 c1 c2 t1 t2 k1 k2 m1 m2 h
    obtain ⟨a1, ha1, s1, hs1, rfl⟩ := mem_expand_cons.mp m1
    obtain ⟨a2, ha2, s2, hs2, rfl⟩ := mem_expand_cons.mp m2
    obtain ⟨i1, j1⟩ := DAG.mem_outEdges.mp k1
    obtain ⟨i2, j2⟩ := DAG.mem_outEdges.mp k2
    have ha := T.prefix_ends hend i1 i2 ha1 ha2 h
    obtain ⟨b, x, hx, hxe⟩ := (T.way e1 i1 a1 ha1).last hend
    obtain ⟨b', x', hx', hxe'⟩ := (T.way e2 i2 a2 ha2).last hend
    have ht : e1.target = e2.target := by
      have ha' := ha
      rw [hx, hx', List.map_append, List.map_append] at ha'
      obtain ⟨-, h⟩ := List.append_inj' ha' rfl
      rw [List.map_singleton, List.map_singleton, List.singleton_inj] at h
      rw [← hxe, ← hxe', h]
    refine ⟨?_, s1, s2, hs1, hs2, ?_⟩
    · have l := hp n e1.target
      have p1 : e1 ∈ FracDAG.parallels d n e1.target := FracDAG.mem_parallels.mpr ⟨i1, j1, rfl⟩
      have p2 : e2 ∈ FracDAG.parallels d n e1.target := FracDAG.mem_parallels.mpr ⟨i2, j2, ht.symm⟩
      generalize FracDAG.parallels d n e1.target = ps at l p1 p2
      rcases ps with _ | ⟨z, _ | ⟨z', r⟩⟩
      · cases p1
      · rw [List.mem_singleton] at p1 p2
        rw [p1, p2]
      · simp at l
    · rw [List.map_append, List.map_append, ha] at h
      exact List.append_cancel_left h
  have out : ∀ {n q}, MaxPath d n q → d.outEdges n ≠ [] := by
    intro n q h
    cases h with
    | last h _ => exact List.ne_nil_of_mem h
    | step h _ => exact List.ne_nil_of_mem h
  induction h1 generalizing q2 t1 t2 with
  | last k1 k2 =>
    cases h2 with
    | last j1 j2 => rw [(head k1 j1 m1 m2 ht).1]
    | step j1 j2 =>
      obtain ⟨rfl, -⟩ := head k1 j1 m1 m2 ht
      exact absurd k2 (out j2)
  | step k1 k2 ih =>
    cases h2 with
    | last j1 j2 =>
      obtain ⟨rfl, -⟩ := head k1 j1 m1 m2 ht
      exact absurd j2 (out k2)
    | step j1 j2 =>
      obtain ⟨rfl, s1, s2, hs1, hs2, hs⟩ := head k1 j1 m1 m2 ht
      rw [ih j2 hs1 hs2 hs]

/-- Two paths with a common reading are the same. -/
theorem Tidy.same_path {d : FracDAG} (T : Tidy d0 d) (hp : ∀ u v, (FracDAG.parallels d u v).length ≤ 1) {n : Int}
    {q1 q2 : List (Entry PronunFrac)} (h1 : MaxPath d n q1) (h2 : MaxPath d n q2) {t : SylString}
    (m1 : t ∈ expand (q1.map Entry.val)) (m2 : t ∈ expand (q2.map Entry.val)) : q1 = q2 :=
  T.same_ends hend hp h1 h2 m1 m2 rfl

omit hend in
/-- Every reading of a path is a path of the original graph. -/
theorem Tidy.origin {d : FracDAG} (T : Tidy d0 d) {n : Int} {q : List (Entry PronunFrac)} (h : MaxPath d n q) {t : SylString}
    (ht : t ∈ expand (q.map Entry.val)) : ∃ p, MaxPath d0 n p ∧ p.map Entry.val = t := by
  induction h generalizing t with
  | @last n e h1 h2 =>
    obtain ⟨i, rfl⟩ := DAG.mem_outEdges.mp h1
    rw [List.map_cons, List.map_nil, expand, List.mem_flatMap] at ht
    obtain ⟨a, ha, h⟩ := ht
    rw [expand, List.map_cons, List.map_nil, List.mem_singleton, List.append_nil] at h
    subst h
    refine (T.way e i t ha).maxPath_leaf ?_
    by_contra hne
    obtain ⟨x, hx⟩ := List.exists_mem_of_ne_nil _ hne
    obtain ⟨y, z, hz, -⟩ := T.leaf e.target (.inr ⟨e.key, e, h1, rfl⟩) ⟨x.target, x, hx, rfl⟩
    rw [h2] at hz
    cases hz
  | @step n e q h1 h2 ih =>
    obtain ⟨i, rfl⟩ := DAG.mem_outEdges.mp h1
    rw [List.map_cons, expand, List.mem_flatMap] at ht
    obtain ⟨a, ha, h⟩ := ht
    obtain ⟨s, hs, rfl⟩ := List.mem_map.mp h
    obtain ⟨p, hp, rfl⟩ := ih hs
    exact (T.way e i a ha).maxPath hp

end

/-! ## Counting -/

theorem syllables_append (l m : List SylString) : syllables (l ++ m) = syllables l + syllables m := by
  unfold syllables
  rw [List.map_append, List.sum_append]

theorem syllables_map_append (a : SylString) (l : List SylString) :
    syllables (l.map fun s => a ++ s) = l.length * a.length + syllables l := by
  unfold syllables
  induction l with
  | nil => simp
  | cons s l ih =>
    rw [List.map_cons, List.map_cons, List.sum_cons, ih, List.map_cons, List.sum_cons, List.length_append, List.length_cons]
    rw [Nat.add_mul, Nat.one_mul]
    omega

theorem syllables_perm {l m : List SylString} (h : l.Perm m) : syllables l = syllables m := by
  induction h with
  | nil => rfl
  | cons x _ ih => exact congrArg (x.length + ·) ih
  | swap x y l => exact Nat.add_left_comm y.length x.length _
  | trans _ _ ih1 ih2 => rw [ih1, ih2]

theorem syllables_subperm {l m : List SylString} (h : l.Subperm m) : syllables l ≤ syllables m := by
  obtain ⟨l', h1, h2⟩ := h
  rw [← syllables_perm h1]
  clear h1
  induction h2 with
  | slnil => exact Nat.le_refl _
  | cons x _ ih => exact Nat.le_trans ih (Nat.le_add_left _ x.length)
  | cons_cons x _ ih => exact Nat.add_le_add_left ih x.length

/-- A chain has no more syllables than its readings together. -/
theorem chain_syllables (c : PronunChain) (hc : ∀ f ∈ c, f.alts ≠ []) :
    1 ≤ (expand c).length ∧ (c.map fun f => syllables f.alts).sum ≤ syllables (expand c) := by
  induction c with
  | nil => simp [expand]
  | cons f c ih =>
    obtain ⟨h1, h2⟩ := ih fun g hg => hc g (List.mem_cons_of_mem _ hg)
    have hf := hc f (List.mem_cons_self ..)
    rw [List.map_cons, List.sum_cons, expand]
    generalize expand c = E at h1 h2
    generalize (c.map fun f => syllables f.alts).sum = C at h2
    have key : ∀ l : List SylString, l.length ≤ (l.flatMap fun a => E.map fun s => a ++ s).length ∧
        syllables l + l.length * C ≤ syllables (l.flatMap fun a => E.map fun s => a ++ s) := by
      intro l
      induction l with
      | nil => simp [syllables]
      | cons a l ih =>
        obtain ⟨k1, k2⟩ := ih
        rw [List.flatMap_cons, List.length_append, List.length_map, syllables_append, syllables_map_append, List.length_cons]
        have : syllables (a :: l) = a.length + syllables l := by unfold syllables; simp
        rw [this]
        have : a.length ≤ E.length * a.length := Nat.le_mul_of_pos_left _ h1
        refine ⟨by omega, ?_⟩
        rw [Nat.add_mul, Nat.one_mul]
        omega
    obtain ⟨k1, k2⟩ := key f.alts
    have hl : 1 ≤ f.alts.length := List.length_pos_iff.mpr hf
    refine ⟨hl.trans k1, le_trans ?_ k2⟩
    have : C ≤ f.alts.length * C := Nat.le_mul_of_pos_left _ hl
    omega

theorem latt_syllables (l : PronunLatt) (hl : ∀ c ∈ l, ∀ f ∈ c, f.alts ≠ []) :
    l.length ≤ (expandLatt l).length ∧ lattSyllables l ≤ syllables (expandLatt l) := by
  induction l with
  | nil => simp [expandLatt, lattSyllables]
  | cons c l ih =>
    obtain ⟨h1, h2⟩ := ih fun c hc => hl c (List.mem_cons_of_mem _ hc)
    obtain ⟨k1, k2⟩ := chain_syllables c (hl c (List.mem_cons_self ..))
    have e : expandLatt (c :: l) = expand c ++ expandLatt l := List.flatMap_cons ..
    have e' : lattSyllables (c :: l) = (c.map fun f => syllables f.alts).sum + lattSyllables l := by
      unfold lattSyllables; rw [List.map_cons, List.sum_cons]
    rw [e, e', List.length_append, List.length_cons, syllables_append]
    omega

/-- Merging single fractions leaves no fraction empty. -/
theorem mergeSinglesAux_ne (c : PronunChain) : (∀ f ∈ c, f.alts ≠ []) →
    (∀ f ∈ mergeSinglesAux none c, f.alts ≠ []) ∧
    ∀ g : PronunFrac, g.alts ≠ [] → ∀ f ∈ mergeSinglesAux (some g) c, f.alts ≠ [] := by
  induction c with
  | nil =>
    intro _
    refine ⟨fun f hf => (by cases hf), fun g hg f hf => ?_⟩
    rw [mergeSinglesAux, List.mem_singleton] at hf
    exact hf ▸ hg
  | cons x c ih =>
    intro h
    obtain ⟨h1, h2⟩ := ih fun f hf => h f (List.mem_cons_of_mem _ hf)
    have hx := h x (List.mem_cons_self ..)
    constructor
    · intro f hf
      rw [mergeSinglesAux] at hf
      split at hf
      · exact h2 x hx f hf
      · rcases List.mem_cons.mp hf with rfl | hf
        · exact hx
        · exact h1 f hf
    · intro g hg f hf
      rw [mergeSinglesAux] at hf
      split at hf
      · refine h2 _ ?_ f hf
        unfold PronunFrac.appendFirst
        split
        · simp
        · exact hg
      · rcases List.mem_cons.mp hf with rfl | hf
        · exact hg
        · rcases List.mem_cons.mp hf with rfl | hf
          · exact hx
          · exact h1 f hf

end Thpronun
