import Verif.Lemmas.IterMerge
import Verif.Lemmas.ParserDag

/-! # Lists with iterators: alternatives, chains, the pool of states, and the whole grouping -/

namespace Thpronun
open Res Spec Cont

section
variable {α : Type} {c : Cont α} {p s : List (Nat × α)} {l : List α}

theorem rep_insert (h : Rep c l) (hc : c.cells = p ++ s) (v : α) :
    Rep ⟨p ++ (c.fresh, v) :: s, c.fresh + 1⟩ (p.map Prod.snd ++ v :: s.map Prod.snd) := by
  refine ⟨by simp, ?_, ?_⟩
  · have hp : (p ++ (c.fresh, v) :: s).Perm ((c.fresh, v) :: c.cells) := by rw [hc]; exact List.perm_middle
    refine (hp.map Prod.fst).nodup_iff.mpr ?_
    rw [List.map_cons, List.nodup_cons]
    refine ⟨fun hm => ?_, h.nodup⟩
    obtain ⟨x, hx, he⟩ := List.mem_map.mp hm
    have := h.old x hx
    simp only at he
    omega
  · intro x hx
    have hp : (p ++ (c.fresh, v) :: s).Perm ((c.fresh, v) :: c.cells) := by rw [hc]; exact List.perm_middle
    rcases List.mem_cons.mp (hp.mem_iff.mp hx) with rfl | hx
    · exact Nat.lt_succ_self _
    · exact Nat.lt_succ_of_lt (h.old x hx)

theorem rep_set (h : Rep c l) {x : Nat × α} (hc : c.cells = p ++ x :: s) (v : α) :
    Rep ⟨p ++ (x.1, v) :: s, c.fresh⟩ (p.map Prod.snd ++ v :: s.map Prod.snd) := by
  refine ⟨by simp, ?_, ?_⟩
  · have := h.nodup
    rw [hc] at this
    simpa using this
  · intro y hy
    rcases List.mem_append.mp hy with hy | hy
    · exact h.old y (by rw [hc]; simp [hy])
    · rcases List.mem_cons.mp hy with rfl | hy
      · exact h.old x (by rw [hc]; simp)
      · exact h.old y (by rw [hc]; simp [hy])

end

/-! ## Alternatives -/

theorem alts_loop {c : Cont SylString} {v : SylString} (hu : Uniq c.cells) : ∀ t p, c.cells = p ++ t →
    whileLoop (altsStep c v) (hd t) = .ok (hd (t.dropWhile fun x => SylString.lt x.2 v)) := by
  intro t
  induction t with
  | nil =>
    intro p hc
    refine loop_leave ?_
    show (c.same _ _ >>= _) = _
    rw [same_end hu hc]; rfl
  | cons x t ih =>
    intro p hc
    have hs : c.same (hd (x :: t)) .fin = .ok false := same_end hu hc
    have hg := get_at (x := x) hu hc
    have hn := next_at (x := x) hu hc
    cases hl : SylString.lt x.2 v with
    | true =>
      rw [loop_go (s' := hd t) ?_, ih (p ++ [x]) (by rw [hc]; simp), List.dropWhile_cons_of_pos (by exact hl)]
      show (c.same _ _ >>= _) = _
      rw [hs]
      show (c.get (.node x.1) >>= _) = _
      rw [hg]
      show (if SylString.lt x.2 v = true then (c.next (.node x.1) >>= _) else _) = _
      rw [hl, hn]; rfl
    | false =>
      rw [List.dropWhile_cons_of_neg (by rw [hl]; simp)]
      refine loop_leave ?_
      show (c.same _ _ >>= _) = _
      rw [hs]
      show (c.get (.node x.1) >>= _) = _
      rw [hg]
      show (if SylString.lt x.2 v = true then _ else _) = _
      rw [hl]; rfl

theorem insertAlt_split (v : SylString) : ∀ l, PronunFrac.insertAlt l v =
    l.takeWhile (fun x => SylString.lt x v) ++
      match l.dropWhile (fun x => SylString.lt x v) with
      | [] => [v]
      | x :: r => if SylString.ne x v then v :: x :: r else x :: r := by
  intro l
  induction l with
  | nil => rfl
  | cons x l ih =>
    rw [PronunFrac.insertAlt]
    cases hl : SylString.lt x v with
    | true =>
      rw [if_pos rfl, List.takeWhile_cons_of_pos (by exact hl), List.dropWhile_cons_of_pos (by exact hl), ih]; rfl
    | false =>
      rw [if_neg (by simp), List.takeWhile_cons_of_neg (by rw [hl]; simp), List.dropWhile_cons_of_neg (by rw [hl]; simp)]; rfl

theorem insertAltI_rep {c : Cont SylString} {l : List SylString} (h : Rep c l) (v : SylString) :
    ∃ c', insertAltI c v = .ok c' ∧ Rep c' (PronunFrac.insertAlt l v) := by
  have hl := alts_loop (v := v) h.nodup c.cells [] rfl
  have hc : c.cells = c.cells.takeWhile (fun x => SylString.lt x.2 v) ++ c.cells.dropWhile (fun x => SylString.lt x.2 v) :=
    List.takeWhile_append_dropWhile.symm
  have h1 : l.takeWhile (fun x => SylString.lt x v) = (c.cells.takeWhile (fun x => SylString.lt x.2 v)).map Prod.snd := by
    rw [← h.vals, List.takeWhile_map]; rfl
  have h2 : l.dropWhile (fun x => SylString.lt x v) = (c.cells.dropWhile (fun x => SylString.lt x.2 v)).map Prod.snd := by
    rw [← h.vals, List.dropWhile_map]; rfl
  rw [insertAlt_split, h1, h2]
  generalize c.cells.takeWhile (fun x => SylString.lt x.2 v) = p at hc
  unfold insertAltI
  rw [show c.first = hd c.cells from rfl, hl]
  generalize c.cells.dropWhile (fun x => SylString.lt x.2 v) = s at hc ⊢
  have hs := same_end h.nodup hc
  have hi := insert_at h.nodup hc v
  simp only [ok_bind, hs]
  cases s with
  | nil =>
    refine ⟨_, ?_, rep_insert h hc v⟩
    simpa using hi
  | cons x s =>
    have hg : c.get (hd (x :: s)) = .ok x.2 := get_at h.nodup hc
    simp only [hg, ok_bind, List.map_cons]
    cases hn : SylString.ne x.2 v with
    | true =>
      refine ⟨_, ?_, rep_insert h hc v⟩
      simpa using hi
    | false =>
      refine ⟨c, by simp, h.nodup |> fun _ => ?_⟩
      have := h.vals
      rw [hc, List.map_append, List.map_cons] at this
      simpa [this] using h

/-! ## Chains -/

namespace IChain

theorem appendFirst_count {f g : PronunFrac} : (f.appendFirst g).altCount = f.altCount := by
  unfold PronunFrac.appendFirst PronunFrac.altCount
  split
  · rename_i h1 h2; rw [h1]; rfl
  · rfl

theorem inner_loop {a : Nat} : ∀ (s p : List (Nat × PronunFrac)) (f : PronunFrac) (c : Cont PronunFrac), Uniq c.cells →
    c.cells = p ++ (a, f) :: s → f.altCount = 1 →
    ∃ f' s', whileLoop (innerStep (.node a)) (c, hd s) = .ok ⟨p ++ (a, f') :: s', c.fresh⟩ ∧ s'.Sublist s ∧
      mergeSinglesAux (some f) (s.map Prod.snd) = f' :: mergeSinglesAux none (s'.map Prod.snd) := by
  intro s
  induction s with
  | nil =>
    intro p f c hu hc _
    refine ⟨f, [], loop_leave ?_, .refl _, rfl⟩
    show (c.same _ _ >>= _) = _
    rw [same_end (p := p ++ [(a, f)]) hu (by rw [hc]; simp)]
    show Res.ok (Sum.inr c) = _
    rw [← hc]
  | cons x s ih =>
    intro p f c hu hc hf
    have hc' : c.cells = (p ++ [(a, f)]) ++ x :: s := by rw [hc]; simp
    have hs : c.same (hd (x :: s)) .fin = .ok false := same_end hu hc'
    have hg : c.get (hd (x :: s)) = .ok x.2 := get_at hu hc'
    have hga : c.get (.node a) = .ok f := get_at (x := (a, f)) hu hc
    rw [List.map_cons, mergeSinglesAux]
    by_cases h1 : x.2.altCount = 1
    · rw [if_pos h1]
      obtain ⟨u, hu1⟩ := List.length_eq_one_iff.mp (show f.alts.length = 1 from hf)
      obtain ⟨v, hv1⟩ := List.length_eq_one_iff.mp (show x.2.alts.length = 1 from h1)
      have haf : f.appendFirst x.2 = { f with alts := [u ++ v] } := by simp only [PronunFrac.appendFirst, hu1, hv1]
      have hset := set_at (x := (a, f)) hu hc { f with alts := [u ++ v] }
      have hu2 : Uniq ((p ++ [(a, ({ f with alts := [u ++ v] } : PronunFrac))]) ++ x :: s) := by
        have := hu; rw [hc] at this
        simpa [Uniq] using this
      have her := erase_at (c := ⟨p ++ (a, { f with alts := [u ++ v] }) :: x :: s, c.fresh⟩)
        (p := p ++ [(a, { f with alts := [u ++ v] })]) (x := x) (s := s) (by simpa using hu2) (by simp)
      obtain ⟨f', s', h2, h3, h4⟩ := ih p (f.appendFirst x.2) ⟨p ++ (a, f.appendFirst x.2) :: s, c.fresh⟩
        (by rw [haf]; exact uniq_sub hu2 (by simp)) rfl (by rw [appendFirst_count]; exact hf)
      refine ⟨f', s', ?_, h3.cons x, h4⟩
      rw [← h2]
      refine loop_go ?_
      show (c.same _ _ >>= _) = _
      rw [hs]
      show (c.get (hd (x :: s)) >>= _) = _
      rw [hg]
      simp only [ok_bind, h1, if_true, hga, hu1, hv1]
      rw [hset]
      simp only [ok_bind]
      rw [show hd (x :: s) = It.node x.1 from rfl, her, haf]
      simp
    · rw [if_neg h1]
      refine ⟨f, x :: s, loop_leave ?_, .refl _, ?_⟩
      · show (c.same _ _ >>= _) = _
        rw [hs]
        show (c.get (hd (x :: s)) >>= _) = _
        rw [hg]
        show (if x.2.altCount = 1 then _ else Res.ok (Sum.inr c)) = _
        rw [if_neg h1, ← hc]
      · rw [List.map_cons, mergeSinglesAux, if_neg h1]

theorem outer_loop : ∀ (n : Nat) (s p : List (Nat × PronunFrac)) (c : Cont PronunFrac), s.length ≤ n → Uniq c.cells →
    c.cells = p ++ s →
    ∃ t, whileLoop outerStep (c, hd s) = .ok ⟨p ++ t, c.fresh⟩ ∧ (t.map Prod.fst).Sublist (s.map Prod.fst) ∧
      t.map Prod.snd = mergeSinglesAux none (s.map Prod.snd) := by
  intro n
  induction n with
  | zero =>
    intro s p c hn hu hc
    cases s with
    | nil =>
      refine ⟨[], loop_leave ?_, .refl _, rfl⟩
      show (c.same _ _ >>= _) = _
      rw [same_end hu hc]
      show Res.ok (Sum.inr c) = _
      rw [← hc]
    | cons x s => simp at hn
  | succ n ih =>
    intro s p c hn hu hc
    cases s with
    | nil => exact ih [] p c (by simp) hu hc
    | cons x s =>
      have hs : c.same (hd (x :: s)) .fin = .ok false := same_end hu hc
      have hg := get_at hu hc
      have hnx := next_at hu hc
      rw [List.map_cons, List.map_cons, mergeSinglesAux]
      by_cases h1 : x.2.altCount = 1
      · rw [if_pos h1]
        obtain ⟨f', s', h2, h3, h4⟩ := inner_loop (a := x.1) s p x.2 c hu hc h1
        have hu' : Uniq (p ++ (x.1, f') :: s') := by
          rw [hc] at hu
          have hh : (p.map Prod.fst ++ x.1 :: s.map Prod.fst).Nodup := by simpa [Uniq] using hu
          have : (p.map Prod.fst ++ x.1 :: s'.map Prod.fst).Nodup :=
            hh.sublist ((List.Sublist.refl _).append ((h3.map _).cons_cons _))
          simpa [Uniq] using this
        obtain ⟨t, h5, h6, h7⟩ := ih s' (p ++ [(x.1, f')]) ⟨p ++ (x.1, f') :: s', c.fresh⟩
          (by have := h3.length_le; simp at hn; omega) hu' (by simp)
        refine ⟨(x.1, f') :: t, ?_, ?_, ?_⟩
        · rw [loop_go (s' := (⟨p ++ (x.1, f') :: s', c.fresh⟩, hd s')) ?_, h5]; · simp
          show (c.same _ _ >>= _) = _
          rw [hs]
          show (c.get (.node x.1) >>= _) = _
          rw [hg]
          show (if x.2.altCount = 1 then (c.next (.node x.1) >>= _) else _) = _
          rw [if_pos h1, hnx]
          show (whileLoop (innerStep (.node x.1)) (c, hd s) >>= _) = _
          rw [h2]
          show (Cont.next _ (.node x.1) >>= _) = _
          rw [next_at (c := ⟨p ++ (x.1, f') :: s', c.fresh⟩) (x := (x.1, f')) (p := p) (s := s') hu' rfl]; rfl
        · exact (h6.trans (h3.map _)).cons_cons _
        · rw [List.map_cons, h7, h4]
      · rw [if_neg h1]
        obtain ⟨t, h5, h6, h7⟩ := ih s (p ++ [x]) c (by simp at hn; omega) hu (by rw [hc]; simp)
        refine ⟨x :: t, ?_, h6.cons_cons _, by rw [List.map_cons, h7]⟩
        rw [loop_go (s' := (c, hd s)) ?_, h5]; · simp
        show (c.same _ _ >>= _) = _
        rw [hs]
        show (c.get (.node x.1) >>= _) = _
        rw [hg]
        show (if x.2.altCount = 1 then _ else (c.next (.node x.1) >>= _)) = _
        rw [if_neg h1, hnx]; rfl

theorem mergeSingles_rep {c : Cont PronunFrac} {l : PronunChain} (h : Rep c l) :
    ∃ c', mergeSingles c = .ok c' ∧ Rep c' (PronunChain.mergeSingles l) := by
  obtain ⟨t, h1, h2, h3⟩ := outer_loop c.cells.length c.cells [] c (Nat.le_refl _) h.nodup rfl
  refine ⟨⟨t, c.fresh⟩, h1, ?_, h.nodup.sublist h2, ?_⟩
  · rw [← h.vals]; exact h3
  · intro x hx
    obtain ⟨y, hy, he⟩ := List.mem_map.mp (h2.subset (List.mem_map_of_mem hx))
    have := h.old y hy
    simp only at he ⊢
    omega

end IChain

/-! ## The pool of states -/

namespace IPool

theorem add_loop' {c : Cont PState} {l : StatePool} (h : Rep c l) (v : PState) : ∀ t p, c.cells = p ++ t →
    ∃ c', (whileLoop (addStep v) (c, hd t) >>= fun r => if r.2 then .ok r.1 else .ok (r.1.pushBack v)) = .ok c' ∧
      Rep c' (p.map Prod.snd ++ StatePool.add (t.map Prod.snd) v) := by
  intro t
  induction t with
  | nil =>
    intro p hc
    refine ⟨c.pushBack v, ?_, ?_⟩
    · rw [loop_leave (a := (c, false)) ?_]; · rfl
      show (c.same _ _ >>= _) = _
      rw [same_end h.nodup hc]; rfl
    · have := rep_insert h hc v
      rw [List.append_nil] at hc
      unfold pushBack
      rw [hc]
      exact this
  | cons x t ih =>
    intro p hc
    have hs : c.same (hd (x :: t)) .fin = .ok false := same_end h.nodup hc
    have hg := get_at h.nodup hc
    have hn := next_at h.nodup hc
    rw [List.map_cons, StatePool.add]
    by_cases h1 : x.2.pos = v.pos ∧ x.2.linked = v.linked
    · rw [if_pos h1]
      refine ⟨_, ?_, rep_set h hc _⟩
      rw [loop_leave (a := (⟨p ++ (x.1, { x.2 with dag := x.2.dag.unionDAG v.dag }) :: t, c.fresh⟩, true)) ?_]; · rfl
      show (c.same _ _ >>= _) = _
      rw [hs]
      show (c.get (.node x.1) >>= _) = _
      rw [hg]
      show (if x.2.pos = v.pos ∧ x.2.linked = v.linked then (c.set (.node x.1) _ >>= _) else _) = _
      rw [if_pos h1, set_at h.nodup hc]; rfl
    · rw [if_neg h1]
      by_cases h2 : x.2.pos ≥ v.pos
      · rw [if_pos h2]
        refine ⟨_, ?_, rep_insert h hc v⟩
        rw [loop_leave (a := (⟨p ++ (c.fresh, v) :: x :: t, c.fresh + 1⟩, true)) ?_]; · rfl
        show (c.same _ _ >>= _) = _
        rw [hs]
        show (c.get (.node x.1) >>= _) = _
        rw [hg]
        show (if x.2.pos = v.pos ∧ x.2.linked = v.linked then _ else if x.2.pos ≥ v.pos then
          (c.insert (hd (x :: t)) v >>= _) else _) = _
        rw [if_neg h1, if_pos h2, insert_at h.nodup hc]; rfl
      · rw [if_neg h2]
        obtain ⟨c', h3, h4⟩ := ih (p ++ [x]) (by rw [hc]; simp)
        refine ⟨c', ?_, by simpa using h4⟩
        rw [loop_go (s' := (c, hd t)) ?_, h3]
        show (c.same _ _ >>= _) = _
        rw [hs]
        show (c.get (.node x.1) >>= _) = _
        rw [hg]
        show (if x.2.pos = v.pos ∧ x.2.linked = v.linked then _ else if x.2.pos ≥ v.pos then _
          else (c.next (.node x.1) >>= _)) = _
        rw [if_neg h1, if_neg h2, hn]; rfl

theorem add_rep {c : Cont PState} {l : StatePool} (h : Rep c l) (v : PState) :
    ∃ c', add c v = .ok c' ∧ Rep c' (StatePool.add l v) := by
  obtain ⟨c', h1, h2⟩ := add_loop' h v c.cells [] rfl
  exact ⟨c', h1, by rw [← h.vals]; exact h2⟩

theorem stretchDot_alike {pos : Nat} : ∀ fuel (i : IDag Syl) (d : PronunDAG), RepD i d → DAG.Coh d →
    Thpronun.stretchDot pos fuel d ≠ .diverge →
    Alike RepD (stretchDot pos i) (Thpronun.stretchDot pos fuel d) := by
  intro fuel
  induction fuel with
  | zero => intro i d _ _ hne; exact absurd rfl hne
  | succ fuel ih =>
    intro i d h hc hne
    unfold Thpronun.stretchDot at hne ⊢
    have hdeg : i.inDegree pos = (d.inEdges pos).length := count_eq h.inn pos
    cases he : d.inEdges pos with
    | nil =>
      rw [he] at hdeg
      have : stretchDot pos i = .ok i := loop_leave (by unfold dotStep; rw [hdeg]; rfl)
      rw [this]
      exact .ok h
    | cons y r =>
      rw [he] at hdeg hne
      obtain ⟨z, hz, hzr, rfl⟩ := range_first h.inn hc.sortedTo (show DAG.equalRange d.mTo pos = y :: r from he)
      obtain ⟨i1, h1, hr1⟩ := IDag.addEdge_rep h hc.sortedFrom z.2.target ((pos : Int) + 1)
        (z.2.val.setEndPos ((pos : Int) + 1))
      have hc1 := hc.addEdge z.2.target ((pos : Int) + 1) (z.2.val.setEndPos ((pos : Int) + 1))
      have hz1 : z ∈ i1.mTo.cells := by
        unfold IDag.addEdge at h1
        rw [IDag.exist_eq h hc.sortedFrom] at h1
        cases hx : d.isEdgeExist z.2.target ((pos : Int) + 1) (z.2.val.setEndPos ((pos : Int) + 1)) with
        | true => rw [hx] at h1; cases h1; exact hz
        | false =>
          rw [hx] at h1; cases h1
          exact (putUpper_perm _ _).mem_iff.mpr (List.mem_cons_of_mem _ hz)
      obtain ⟨i2, h2, hr2⟩ := IDag.removeEdge_rep hr1 hc1.sortedFrom hc1.sortedTo z.2.target pos z.2.val
      have hst : dotStep pos i = .ok (.inl i2) := by
        unfold dotStep
        rw [if_pos (by rw [hdeg]; simp)]
        simp only [hzr, get_cell h.inn.nodup hz, ok_bind]
        rw [h1]
        simp only [ok_bind, get_cell hr1.inn.nodup hz1]
        rw [h2]; rfl
      have : stretchDot pos i = stretchDot pos i2 := loop_go hst
      rw [this]
      exact ih i2 _ hr2 (hc1.removeEdge _ _ _) hne

theorem stretchDot_ok {p : Nat} : ∀ (fuel : Nat) (d : PronunDAG), DAG.Coh d → d.inDegree p < fuel →
    ∃ d', Thpronun.stretchDot p fuel d = .ok d'
  | 0, d, _, h => by omega
  | fuel + 1, d, hd, h => by
    rw [Thpronun.stretchDot]
    cases hi : d.inEdges p with
    | nil => exact ⟨d, rfl⟩
    | cons i rest =>
      have him : i ∈ d.inEdges p := by rw [hi]; simp
      obtain ⟨hi1, hi2⟩ := DAG.mem_inEdges.mp him
      have hd1 := hd.addEdge i.target ((p : Int) + 1) (i.val.setEndPos ((p : Int) + 1))
      refine stretchDot_ok fuel _ (hd1.removeEdge _ _ _) ?_
      have h1 : (d.addEdge i.target ((p : Int) + 1) (i.val.setEndPos ((p : Int) + 1))).1.inEdges p = d.inEdges p :=
        inEdges_addEdge_ne (by omega)
      rw [DAG.removeEdge_eq hd1]
      unfold DAG.inDegree at h ⊢
      unfold DAG.inEdges DAG.equalRange at h1 h ⊢
      simp only at h1 ⊢
      rw [List.filter_comm, h1]
      refine Nat.lt_of_lt_of_le ?_ (Nat.le_of_lt_succ h)
      rw [List.length_filter_lt_length_iff_exists]
      refine ⟨i, by simpa [DAG.inEdges, DAG.equalRange] using him, ?_⟩
      have : ceq i.val i.val = true := LawfulCppEq.refl _
      simp [DAG.Entry.swap, DAG.isMatch, this, hi2]

end IPool

/-! ## Grouping as a whole -/

theorem Spec.Alike.mono {α β : Type} {R S : α → β → Prop} {x : Res α} {y : Res β} (h : Alike R x y)
    (hrs : ∀ a b, R a b → S a b) : Alike S x y := by
  cases h with
  | ok h => exact .ok (hrs _ _ h)
  | throw e => exact .throw e
  | ub => exact .ub
  | diverge => exact .diverge

theorem rep_new {α : Type} : Rep (Cont.new : Cont α) [] := ⟨rfl, List.nodup_nil, fun _ h => by cases h⟩

theorem toFrac_rep {i : IDag Syl} {d : PronunDAG} (h : Rep i.mFrom d.mFrom) :
    ∃ f, whileLoop (IFrac.toFracStep i) (IDag.new, i.mFrom.first) = .ok f ∧ RepD f d.toFrac := by
  obtain ⟨f, h1, h2⟩ := IDag.add_loop (o := i.mFrom)
    (g := fun x => (x.key, x.target, PronunFrac.single x.target [x.val])) (step := IFrac.toFracStep i)
    (fun _ _ => rfl) h.nodup i.mFrom.cells [] IDag.new (DAG.empty : FracDAG) rfl ⟨rep_new, rep_new⟩ List.Pairwise.nil
  exact ⟨f, h1, by rw [PronunDAG.toFrac, ← h.vals]; exact h2⟩

theorem fracDAG_alike {i : IDag Syl} {d : PronunDAG} (h : Rep i.mFrom d.mFrom) :
    Alike RepD (IFrac.fracDAG i) (PronunDAG.fracDAG d) := by
  obtain ⟨f, h1, h2⟩ := toFrac_rep h
  obtain ⟨hc0, _, hs0, _⟩ := toFrac_spec d
  unfold IFrac.fracDAG PronunDAG.fracDAG IFrac.mergeFractions FracDAG.mergeFractions FracDAG.mergeSingles
  rw [h1]
  simp only [ok_bind]
  have hne : FracDAG.mergeSinglesLoop (d.toFrac.mFrom.length + 1) d.toFrac ≠ .diverge := by
    rcases FracDAG.mergeSinglesLoop_total _ d.toFrac hc0 hs0 (Nat.lt_succ_self _) with ⟨d1, e1, -⟩ | e
    · rw [e1]; simp
    · rw [e]; simp
  have hal := IFrac.mergeSinglesLoop_alike _ f d.toFrac h2 hc0 hne
  unfold IFrac.mergeSingles
  generalize whileLoop IFrac.singlesStep (f, f.mFrom.first) = r at hal ⊢
  generalize FracDAG.mergeSinglesLoop (d.toFrac.mFrom.length + 1) d.toFrac = r' at hal ⊢
  cases hal with
  | throw e => exact .throw e
  | ub => exact .ub
  | diverge => exact .diverge
  | @ok i1 d1 hr =>
    obtain ⟨d2, e2, -⟩ :=
      FracDAG.mergeParallelsLoop_spec (d1.mFrom.length + 1) 0 d1 hr.2 (by omega) (Nat.lt_succ_self _)
    exact IFrac.mergeParallelsLoop_alike _ 0 i1 d1 hr.1 hr.2 (by rw [e2]; simp)

end Thpronun
