import Verif.Lemmas.Iter
import Verif.Lemmas.Frac

/-! # Loops that erase and insert while they iterate: helper lemmas -/

namespace Thpronun
open Res Spec Cont

section
variable {α : Type} {c : Cont α} {x : Nat × α}

theorem get_cell (hu : Uniq c.cells) (hx : x ∈ c.cells) : c.get (.node x.1) = .ok x.2 := by
  obtain ⟨p, s, hc⟩ := List.append_of_mem hx
  exact get_at hu hc

theorem get_gone {a : Nat} (h : ∀ y ∈ c.cells, y.1 ≠ a) : c.get (.node a) = .ub := by
  have : c.cells.find? (fun y => decide (y.1 = a)) = none :=
    List.find?_eq_none.mpr fun y hy => by simpa using h y hy
  unfold Cont.get
  simp only [this]

end

/-- The first element of a nonempty range. -/
theorem range_first {V : Type} {m : Cont (Entry V)} {l : List (Entry V)} {k : Int} {y : Entry V} {r : List (Entry V)}
    (h : Rep m l) (hs : DAG.Sorted l) (he : DAG.equalRange l k = y :: r) :
    ∃ x ∈ m.cells, (m.range k).1 = .node x.1 ∧ x.2 = y := by
  obtain ⟨A, B, C, hc, hA, hB, hC, hr⟩ := range_split (m := m) (by rw [h.vals]; exact hs) k
  rw [equalRange_split h.vals hc hA hB hC] at he
  cases B with
  | nil => cases he
  | cons x B =>
    rw [List.map_cons] at he
    obtain ⟨h1, -⟩ := List.cons.inj he
    exact ⟨x, by rw [hc]; simp, by rw [hr]; rfl, h1⟩

namespace IFrac

variable {i : IDag PronunFrac} {d : FracDAG}

theorem mergeAt_alike (h : RepD i d) (hc : DAG.Coh d) {x : Nat × Entry PronunFrac} (hx : x ∈ i.mFrom.cells)
    (hp : FracDAG.isPass d x.2 = true) : Alike RepD (mergeAt i (.node x.1)) (FracDAG.mergeAt d x.2) := by
  obtain ⟨hp1, hp2⟩ : d.outDegree x.2.key = 1 ∧ d.inDegree x.2.key = 1 := by simpa [FracDAG.isPass] using hp
  obtain ⟨y, hy⟩ := List.length_eq_one_iff.mp (show (DAG.equalRange d.mTo x.2.key).length = 1 from hp2)
  obtain ⟨z, hz, hzr, rfl⟩ := range_first h.inn hc.sortedTo hy
  have hg := get_cell h.out.nodup hx
  have hgi := get_cell h.inn.nodup hz
  have hin : d.inEdges x.2.key = [z.2] := hy
  unfold FracDAG.mergeAt
  simp only [hin]
  simp only [mergeAt, hg, hzr, hgi, ok_bind]
  cases ha : z.2.val.alts with
  | nil => simp only [firstAlt, ha, ub_bind]; exact .ub
  | cons a as =>
    cases hb : x.2.val.alts with
    | nil => simp only [firstAlt, ha, hb, ok_bind, ub_bind]; exact .ub
    | cons b bs =>
      simp only [firstAlt, ha, hb, ok_bind]
      obtain ⟨i1, h1, hr1⟩ := IDag.removeEdge_rep h hc.sortedFrom hc.sortedTo z.2.target x.2.key z.2.val
      have hf1 : i1.mFrom = ⟨i.mFrom.cells.eraseP
          (fun y => decide (y.2.key = z.2.target) && DAG.isMatch x.2.key z.2.val y.2), i.mFrom.fresh⟩ := by
        unfold IDag.removeEdge at h1
        rw [IDag.eraseFirst_eq h.out hc.sortedFrom, IDag.eraseFirst_eq h.inn hc.sortedTo] at h1
        exact (congrArg IDag.mFrom (Res.ok.inj h1)).symm
      rw [h1, ok_bind]
      by_cases hl : z.2.target = x.2.key
      · rw [if_pos hl]
        have hget : i1.mFrom.get (.node x.1) = .ub := by
          obtain ⟨p, s, hcell⟩ := List.append_of_mem hx
          have hu : Uniq (p ++ x :: s) := hcell ▸ h.out.nodup
          -- the only edge from the node is the loop
          have hout : d.outEdges x.2.key = [x.2] := by
            obtain ⟨u, hu⟩ := List.length_eq_one_iff.mp (show (d.outEdges x.2.key).length = 1 from hp1)
            have : x.2 ∈ d.outEdges x.2.key := DAG.mem_outEdges.mpr ⟨by rw [← h.out.vals]; exact List.mem_map_of_mem hx, rfl⟩
            rw [hu, List.mem_singleton] at this
            rw [hu, this]
          have hsw : DAG.Entry.swap z.2 ∈ d.mFrom := by
            rw [← hc.perm.mem_iff]
            exact List.mem_map_of_mem (by rw [← h.inn.vals]; exact List.mem_map_of_mem hz)
          have hzk : z.2.key = x.2.key := (DAG.mem_inEdges.mp (hin ▸ List.mem_singleton_self z.2)).2
          have hzx : DAG.Entry.swap z.2 = x.2 := by
            have : DAG.Entry.swap z.2 ∈ d.outEdges x.2.key := DAG.mem_outEdges.mpr ⟨hsw, hl⟩
            rwa [hout, List.mem_singleton] at this
          have hcount : (i.mFrom.cells.filter fun y => decide (y.2.key = x.2.key)).length = 1 :=
            (count_eq h.out x.2.key).trans hp1
          have hpk : ∀ y ∈ p, y.2.key ≠ x.2.key := by
            intro y hy he
            rw [hcell, List.filter_append, List.filter_cons_of_pos (by simp), List.length_append, List.length_cons] at hcount
            have : (p.filter fun y => decide (y.2.key = x.2.key)).length ≠ 0 := by
              intro h0
              have := List.filter_eq_nil_iff.mp (List.length_eq_zero_iff.mp h0) y hy
              simp [he] at this
            omega
          have her : i1.mFrom.cells = p ++ s := by
            rw [hf1]
            show List.eraseP _ i.mFrom.cells = _
            rw [hcell, List.eraseP_append_right _ (fun y hy => by simp [hl, hpk y hy]), List.eraseP_cons_of_pos]
            have h2 : x.2.target = x.2.key := by rw [← hzx]; exact hzk.trans (by rw [hzx])
            have h3 : x.2.val = z.2.val := by rw [← hzx]; rfl
            simp only [DAG.isMatch, hl, h2, h3, decide_true, Bool.true_and]
            exact LawfulCppEq.refl _
          refine get_gone fun y hy => ?_
          rw [her, List.mem_append] at hy
          rcases hy with hy | hy
          · exact uniq_not hu y hy
          · exact uniq_not' (uniq_right hu) y hy
        rw [hget, ub_bind]; exact .ub
      · rw [if_neg hl]
        have hx1 : x ∈ i1.mFrom.cells := by
          rw [hf1]
          refine (List.mem_eraseP_of_neg ?_).mpr hx
          simp only [Bool.and_eq_true, decide_eq_true_eq, not_and]
          intro he; exact absurd he.symm hl
        rw [get_cell hr1.out.nodup hx1, ok_bind]
        have hc1 := hc.removeEdge z.2.target x.2.key z.2.val
        obtain ⟨i2, h2, hr2⟩ := IDag.removeEdge_rep hr1 hc1.sortedFrom hc1.sortedTo x.2.key x.2.target x.2.val
        rw [ok_bind, h2, ok_bind]
        have hc2 := hc1.removeEdge x.2.key x.2.target x.2.val
        obtain ⟨i3, h3, hr3⟩ := IDag.addEdge_rep hr2 hc2.sortedFrom z.2.target x.2.target
          (PronunFrac.single x.2.target (a ++ b))
        rw [h3]
        exact .ok hr3

theorem mergeAt_coh (hc : DAG.Coh d) {e : Entry PronunFrac} {d' : FracDAG} (h : FracDAG.mergeAt d e = .ok d') :
    DAG.Coh d' := by
  unfold FracDAG.mergeAt at h
  split at h
  · cases h
  · dsimp only at h
    split at h
    · split at h
      · cases h
      · cases h
        exact ((hc.removeEdge _ _ _).removeEdge _ _ _).addEdge _ _ _
    · cases h

theorem mergeAt_noThrow {e : Entry PronunFrac} : (∃ d', FracDAG.mergeAt d e = .ok d') ∨ FracDAG.mergeAt d e = .ub := by
  unfold FracDAG.mergeAt
  split
  · exact .inr rfl
  · dsimp only
    split
    · split
      · exact .inr rfl
      · exact .inl ⟨_, rfl⟩
    · exact .inr rfl

theorem isPass_eq (h : RepD i d) (e : Entry PronunFrac) :
    (decide (i.outDegree e.key = 1) && decide (i.inDegree e.key = 1)) = FracDAG.isPass d e := by
  have h1 : i.outDegree e.key = d.outDegree e.key := count_eq h.out e.key
  have h2 : i.inDegree e.key = d.inDegree e.key := count_eq h.inn e.key
  rw [h1, h2, FracDAG.isPass]

theorem singles_scan (h : RepD i d) (hc : DAG.Coh d) : ∀ s p, i.mFrom.cells = p ++ s →
    whileLoop singlesStep (i, hd s) =
      match s.find? (fun x => FracDAG.isPass d x.2) with
      | none => .ok i
      | some x => mergeAt i (.node x.1) >>= fun i' => whileLoop singlesStep (i', i'.mFrom.first) := by
  intro s
  induction s with
  | nil =>
    intro p hcell
    refine loop_leave ?_
    show (i.mFrom.same _ _ >>= _) = _
    rw [same_end h.out.nodup hcell]; rfl
  | cons x s ih =>
    intro p hcell
    have hs : i.mFrom.same (hd (x :: s)) .fin = .ok false := same_end h.out.nodup hcell
    have hg := get_at h.out.nodup hcell
    have hn := next_at h.out.nodup hcell
    have hx : x ∈ i.mFrom.cells := by rw [hcell]; simp
    cases hp : FracDAG.isPass d x.2 with
    | true =>
      rw [List.find?_cons_of_pos (by exact hp)]
      have hstep : singlesStep (i, hd (x :: s)) = mergeAt i (.node x.1) >>= fun i' => .ok (.inl (i', i'.mFrom.first)) := by
        show (i.mFrom.same _ _ >>= _) = _
        rw [hs]
        show (i.mFrom.get (.node x.1) >>= _) = _
        rw [hg]
        show (if (decide (i.outDegree x.2.key = 1) && decide (i.inDegree x.2.key = 1)) = true then _ else _) = _
        rw [isPass_eq h, hp]; rfl
      have hal := mergeAt_alike h hc hx hp
      cases hm : mergeAt i (.node x.1) with
      | ok i' => rw [loop_go (s' := (i', i'.mFrom.first)) (by rw [hstep, hm]; rfl)]; simp only [hm, ok_bind]
      | ub => rw [loop_ub (by rw [hstep, hm]; rfl)]; simp only [hm, ub_bind]
      | throw e =>
        rw [hm] at hal
        rcases mergeAt_noThrow (d := d) (e := x.2) with ⟨d', h'⟩ | h' <;> rw [h'] at hal <;> cases hal
      | diverge =>
        rw [hm] at hal
        rcases mergeAt_noThrow (d := d) (e := x.2) with ⟨d', h'⟩ | h' <;> rw [h'] at hal <;> cases hal
    | false =>
      rw [List.find?_cons_of_neg (by rw [hp]; simp), ← ih (p ++ [x]) (by rw [hcell]; simp)]
      refine loop_go ?_
      show (i.mFrom.same _ _ >>= _) = _
      rw [hs]
      show (i.mFrom.get (.node x.1) >>= _) = _
      rw [hg]
      show (if (decide (i.outDegree x.2.key = 1) && decide (i.inDegree x.2.key = 1)) = true then _
        else i.mFrom.next (.node x.1) >>= _) = _
      rw [isPass_eq h, hp, hn]; rfl

theorem mergeSinglesLoop_alike : ∀ fuel (i : IDag PronunFrac) (d : FracDAG), RepD i d → DAG.Coh d →
    FracDAG.mergeSinglesLoop fuel d ≠ .diverge →
    Alike (fun i d => RepD i d ∧ DAG.Coh d) (whileLoop singlesStep (i, i.mFrom.first)) (FracDAG.mergeSinglesLoop fuel d) := by
  intro fuel
  induction fuel with
  | zero => intro i d _ _ hne; exact absurd rfl hne
  | succ fuel ih =>
    intro i d h hc hne
    have hsc := singles_scan h hc i.mFrom.cells [] rfl
    have hf : d.mFrom.find? (FracDAG.isPass d) = (i.mFrom.cells.find? (fun x => FracDAG.isPass d x.2)).map Prod.snd := by
      rw [← h.out.vals, List.find?_map]; rfl
    unfold FracDAG.mergeSinglesLoop at hne ⊢
    show Alike _ (whileLoop singlesStep (i, hd i.mFrom.cells)) _
    rw [hsc]
    rw [hf] at hne ⊢
    cases hx : i.mFrom.cells.find? (fun x => FracDAG.isPass d x.2) with
    | none => exact .ok ⟨h, hc⟩
    | some x =>
      rw [hx] at hne
      have hal := mergeAt_alike h hc (List.mem_of_find?_eq_some hx) (by simpa using List.find?_some hx)
      simp only [Option.map_some] at hne ⊢
      generalize hm : mergeAt i (.node x.1) = r at hal
      generalize hm' : FracDAG.mergeAt d x.2 = r' at hal
      rw [hm'] at hne
      cases hal with
      | ok hr => exact ih _ _ hr (mergeAt_coh hc hm') hne
      | throw e => exact .throw e
      | ub => exact .ub
      | diverge => exact .diverge

/-! ## Parallel edges -/

theorem gather_loop {c : Cont (Entry PronunFrac)} {C : List (Nat × Entry PronunFrac)} {tg : Int} (hu : Uniq c.cells) :
    ∀ B p f n, c.cells = p ++ (B ++ C) →
      whileLoop (gatherStep c (hd C) tg) (hd (B ++ C), f, n) =
        .ok (((B.map Prod.snd).filter (fun x => x.target = tg)).foldl (fun f x => f.addFrac x.val) f,
          n + ((B.map Prod.snd).filter (fun x => x.target = tg)).length) := by
  intro B
  induction B with
  | nil =>
    intro p f n hc
    refine loop_leave ?_
    show (c.same _ _ >>= _) = _
    rw [same_at hu hc]; rfl
  | cons x B ih =>
    intro p f n hc
    have hg := get_at (x := x) hu hc
    have hn := next_at (x := x) hu hc
    have hs : c.same (hd (x :: B ++ C)) (hd C) = .ok false := same_at hu hc
    have hc' : c.cells = (p ++ [x]) ++ (B ++ C) := by rw [hc]; simp
    by_cases hm : x.2.target = tg
    · rw [loop_go (s' := (hd (B ++ C), f.addFrac x.2.val, n + 1)) ?_, ih _ _ _ hc']
      · rw [List.map_cons, List.filter_cons_of_pos (by simpa using hm), List.foldl_cons, List.length_cons]
        congr 2
        omega
      show (c.same _ _ >>= _) = _
      rw [hs]
      show (c.get (.node x.1) >>= _) = _
      rw [hg]
      show (if x.2.target = tg then (c.next (.node x.1) >>= _) else _) = _
      rw [if_pos hm, hn]; rfl
    · rw [loop_go (s' := (hd (B ++ C), f, n)) ?_, ih _ _ _ hc']
      · rw [List.map_cons, List.filter_cons_of_neg (by simpa using hm)]
      show (c.same _ _ >>= _) = _
      rw [hs]
      show (c.get (.node x.1) >>= _) = _
      rw [hg]
      show (if x.2.target = tg then _ else (c.next (.node x.1) >>= _)) = _
      rw [if_neg hm, hn]; rfl

theorem gather_eq (h : RepD i d) (hs : DAG.Sorted d.mFrom) (src tg : Int) :
    whileLoop (gatherStep i.mFrom (i.mFrom.range src).2 tg) ((i.mFrom.range src).1, PronunFrac.empty, 0) =
      .ok ((FracDAG.parallels d src tg).foldl (fun f x => f.addFrac x.val) PronunFrac.empty,
        (FracDAG.parallels d src tg).length) := by
  obtain ⟨A, B, C, hc, hA, hB, hC, hr⟩ := range_split (m := i.mFrom) (by rw [h.out.vals]; exact hs) src
  rw [hr, gather_loop h.out.nodup B A _ _ hc, FracDAG.parallels, DAG.outEdges, equalRange_split h.out.vals hc hA hB hC]
  simp

theorem next_first {α : Type} {c : Cont α} (hu : Uniq c.cells) (hne : c.cells ≠ []) :
    c.next c.first = .ok (hd (c.cells.drop 1)) := by
  unfold first
  cases hc : c.cells with
  | nil => exact absurd hc hne
  | cons x s => exact next_at (p := []) hu hc

theorem parallels_step (h : RepD i d) (hc : DAG.Coh d) {x : Nat × Entry PronunFrac} {p s : List (Nat × Entry PronunFrac)}
    (hcell : i.mFrom.cells = p ++ x :: s) :
    if FracDAG.isParallel d x.2 = true then
      ∃ i', RepD i' (FracDAG.mergeParAt d x.2) ∧ parallelsStep (i, hd (x :: s)) = .ok (.inl (i', hd (i'.mFrom.cells.drop 1)))
    else parallelsStep (i, hd (x :: s)) = .ok (.inl (i, hd s)) := by
  have hs : i.mFrom.same (hd (x :: s)) .fin = .ok false := same_end h.out.nodup hcell
  have hg := get_at h.out.nodup hcell
  have hn := next_at h.out.nodup hcell
  have hdeg : i.outDegree x.2.key = d.outDegree x.2.key := count_eq h.out x.2.key
  have h0 : parallelsStep (i, hd (x :: s)) =
      if d.outDegree x.2.key = 1 then .ok (.inl (i, hd s))
      else if (FracDAG.parallels d x.2.key x.2.target).length > 1 then
        (i.removeDirectEdges x.2.key x.2.target >>= fun d1 =>
          d1.addEdge x.2.key x.2.target
            ((FracDAG.parallels d x.2.key x.2.target).foldl (fun f x => f.addFrac x.val) PronunFrac.empty) >>= fun d2 =>
            d2.mFrom.next d2.mFrom.first >>= fun it => .ok (.inl (d2, it)))
      else .ok (.inl (i, hd s)) := by
    show (i.mFrom.same _ _ >>= _) = _
    rw [hs]
    show (i.mFrom.get (.node x.1) >>= fun a => i.mFrom.get (.node x.1) >>= fun b =>
      if i.outDegree a.key = 1 then (i.mFrom.next (.node x.1) >>= _)
      else (whileLoop (gatherStep i.mFrom (i.mFrom.range a.key).2 b.target) ((i.mFrom.range a.key).1, PronunFrac.empty, 0)
        >>= _)) = _
    rw [hg]
    simp only [ok_bind]
    rw [hdeg, hn, gather_eq h hc.sortedFrom]
    simp only [ok_bind]
    rw [show i.mFrom.next (hd (x :: s)) = _ from hn]
    rfl
  by_cases hp : FracDAG.isParallel d x.2 = true
  · rw [if_pos hp]
    obtain ⟨h1, h2⟩ : ¬ d.outDegree x.2.key = 1 ∧ (FracDAG.parallels d x.2.key x.2.target).length > 1 := by
      simpa [FracDAG.isParallel] using hp
    rw [h0, if_neg h1, if_pos h2]
    obtain ⟨i1, e1, hr1⟩ := IDag.removeDirectEdges_rep h hc.sortedFrom hc.sortedTo x.2.key x.2.target
    have hc1 := hc.removeDirectEdges x.2.key x.2.target
    obtain ⟨i2, e2, hr2⟩ := IDag.addEdge_rep hr1 hc1.sortedFrom x.2.key x.2.target
      ((FracDAG.parallels d x.2.key x.2.target).foldl (fun f x => f.addFrac x.val) PronunFrac.empty)
    refine ⟨i2, hr2, ?_⟩
    rw [e1, ok_bind, e2, ok_bind, next_first hr2.out.nodup]; · rfl
    intro h3
    have h4 := hr2.out.vals
    rw [h3, List.map_nil] at h4
    have h5 := FracDAG.mergeParAt_mFrom (d := d) x.2
    rw [show (FracDAG.mergeParAt d x.2).mFrom = [] from h4.symm] at h5
    exact List.not_mem_nil (h5 ▸ DAG.mem_mmEmplace.mpr (.inl rfl))
  · rw [if_neg hp, h0]
    by_cases h1 : d.outDegree x.2.key = 1
    · rw [if_pos h1]
    · rw [if_neg h1, if_neg]
      simpa [FracDAG.isParallel, h1] using hp

theorem parallels_scan (h : RepD i d) (hc : DAG.Coh d) : ∀ s p, i.mFrom.cells = p ++ s →
    match s.find? (fun x => FracDAG.isParallel d x.2) with
    | none => whileLoop parallelsStep (i, hd s) = .ok i
    | some x => ∃ i', RepD i' (FracDAG.mergeParAt d x.2) ∧
        whileLoop parallelsStep (i, hd s) = whileLoop parallelsStep (i', hd (i'.mFrom.cells.drop 1)) := by
  intro s
  induction s with
  | nil =>
    intro p hcell
    refine loop_leave ?_
    show (i.mFrom.same _ _ >>= _) = _
    rw [same_end h.out.nodup hcell]; rfl
  | cons x s ih =>
    intro p hcell
    have hst := parallels_step h hc hcell
    by_cases hp : FracDAG.isParallel d x.2 = true
    · rw [if_pos hp] at hst
      obtain ⟨i', hr, he⟩ := hst
      rw [List.find?_cons_of_pos (by exact hp)]
      exact ⟨i', hr, loop_go he⟩
    · rw [if_neg hp] at hst
      rw [List.find?_cons_of_neg (by exact hp), loop_go hst]
      exact ih (p ++ [x]) (by rw [hcell]; simp)

theorem mergeParallelsLoop_alike : ∀ fuel skip (i : IDag PronunFrac) (d : FracDAG), RepD i d → DAG.Coh d →
    FracDAG.mergeParallelsLoop fuel skip d ≠ .diverge →
    Alike RepD (whileLoop parallelsStep (i, hd (i.mFrom.cells.drop skip))) (FracDAG.mergeParallelsLoop fuel skip d) := by
  intro fuel
  induction fuel with
  | zero => intro skip i d _ _ hne; exact absurd rfl hne
  | succ fuel ih =>
    intro skip i d h hc hne
    have hsc := parallels_scan h hc (i.mFrom.cells.drop skip) (i.mFrom.cells.take skip) (by simp)
    have hf : (d.mFrom.drop skip).find? (FracDAG.isParallel d) =
        ((i.mFrom.cells.drop skip).find? (fun x => FracDAG.isParallel d x.2)).map Prod.snd := by
      rw [← h.out.vals, ← List.map_drop, List.find?_map]; rfl
    unfold FracDAG.mergeParallelsLoop at hne ⊢
    rw [hf] at hne ⊢
    cases hx : (i.mFrom.cells.drop skip).find? (fun x => FracDAG.isParallel d x.2) with
    | none => rw [hx] at hsc; rw [show whileLoop _ _ = _ from hsc]; exact .ok h
    | some x =>
      rw [hx] at hsc hne
      obtain ⟨i', hr, he⟩ := hsc
      rw [he]
      exact ih 1 i' _ hr (FracDAG.Coh_mergeParAt hc x.2) hne

end IFrac

end Thpronun
