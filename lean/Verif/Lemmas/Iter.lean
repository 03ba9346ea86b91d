import Verif.Spec.Iter
import Verif.Lemmas.Loop
import Verif.Lemmas.Dag

/-! # Containers with iterators: helper lemmas -/

namespace Thpronun
open Res Spec

/-! ## Loops -/

section
variable {σ α : Type} {step : σ → Res (σ ⊕ α)} {s : σ}

theorem loop_go {s' : σ} (h : step s = .ok (.inl s')) : whileLoop step s = whileLoop step s' := by
  have hi : ∀ n, iterLoop step (n + 1) s = iterLoop step n s' := by
    intro n; simp only [iterLoop, h]
  by_cases hx : ∃ n, iterLoop step n s' ≠ .diverge
  · obtain ⟨n, hn⟩ := hx
    rw [whileLoop_eq hn, whileLoop_eq (n := n + 1) (by rw [hi]; exact hn), hi]
  · have hs : ¬ ∃ n, iterLoop step n s ≠ .diverge := by
      rintro ⟨n, hn⟩
      cases n with
      | zero => exact hn rfl
      | succ n => rw [hi] at hn; exact hx ⟨n, hn⟩
    unfold whileLoop
    rw [dif_neg hx, dif_neg hs]

theorem loop_leave {a : α} (h : step s = .ok (.inr a)) : whileLoop step s = .ok a := by
  have : iterLoop step 1 s = .ok a := by simp only [iterLoop, h]
  rw [whileLoop_eq (n := 1) (by rw [this]; simp), this]

theorem loop_ub (h : step s = .ub) : whileLoop step s = .ub := by
  have : iterLoop step 1 s = .ub := by simp only [iterLoop, h]
  rw [whileLoop_eq (n := 1) (by rw [this]; simp), this]

end

/-! ## Containers -/

namespace Cont
variable {α : Type} {c : Cont α} {p s : List (Nat × α)} {x : Nat × α}

/-- No two elements have the same identity. -/
def Uniq (l : List (Nat × α)) : Prop := (l.map Prod.fst).Nodup

theorem uniq_not (h : Uniq (p ++ x :: s)) : ∀ y ∈ p, y.1 ≠ x.1 := by
  intro y hy he
  have h : (p.map Prod.fst ++ x.1 :: s.map Prod.fst).Nodup := by simpa [Uniq] using h
  rw [List.nodup_append] at h
  exact h.2.2 y.1 (List.mem_map_of_mem hy) x.1 (by simp) he

theorem uniq_not' (h : Uniq (x :: s)) : ∀ y ∈ s, y.1 ≠ x.1 := by
  intro y hy he
  have h : (x.1 :: s.map Prod.fst).Nodup := by simpa [Uniq] using h
  rw [List.nodup_cons] at h
  exact h.1 (he ▸ List.mem_map_of_mem hy)

theorem uniq_right (h : Uniq (p ++ s)) : Uniq s := by
  have h : (p.map Prod.fst ++ s.map Prod.fst).Nodup := by simpa [Uniq] using h
  exact (List.nodup_append.mp h).2.1

theorem uniq_sub {l l' : List (Nat × α)} (h : Uniq l) (hs : l'.Sublist l) : Uniq l' :=
  List.Nodup.sublist (hs.map _) h

theorem after_at (h : Uniq (p ++ x :: s)) : after x.1 (p ++ x :: s) = some (hd s) := by
  induction p with
  | nil => simp [after]
  | cons y p ih =>
    have hy := uniq_not (p := y :: p) h y (by simp)
    rw [List.cons_append, after, if_neg hy]
    exact ih (uniq_right (p := [y]) h)

theorem get_at (h : Uniq c.cells) (hc : c.cells = p ++ x :: s) : c.get (.node x.1) = .ok x.2 := by
  rw [hc] at h
  have : c.cells.find? (fun y => decide (y.1 = x.1)) = some x := by
    rw [hc, List.find?_append, List.find?_eq_none.mpr (fun y hy => by simpa using uniq_not h y hy)]
    simp
  unfold get
  simp only [this]

theorem next_at (h : Uniq c.cells) (hc : c.cells = p ++ x :: s) : c.next (.node x.1) = .ok (hd s) := by
  have := after_at (hc ▸ h)
  unfold next
  simp only [hc, this]

theorem has_node (h : Uniq c.cells) (hc : c.cells = p ++ x :: s) : c.has (.node x.1) = true := by
  have := after_at (hc ▸ h)
  simp only [has, hc, this, Option.isSome_some]

theorem has_hd (h : Uniq c.cells) (hc : c.cells = p ++ s) : c.has (hd s) = true := by
  cases s with
  | nil => rfl
  | cons x s => exact has_node h hc

theorem erase_at (h : Uniq c.cells) (hc : c.cells = p ++ x :: s) :
    c.erase (.node x.1) = .ok (⟨p ++ s, c.fresh⟩, hd s) := by
  have h1 := after_at (hc ▸ h)
  have h2 : (p ++ x :: s).eraseP (fun y => decide (y.1 = x.1)) = p ++ s := by
    rw [List.eraseP_append_right _ (fun y hy => by simpa using uniq_not (hc ▸ h) y hy)]
    simp
  unfold erase
  simp only [hc, h1, h2]

theorem set_at (h : Uniq c.cells) (hc : c.cells = p ++ x :: s) (v : α) :
    c.set (.node x.1) v = .ok ⟨p ++ (x.1, v) :: s, c.fresh⟩ := by
  unfold set
  simp only [has_node h hc, if_true]
  congr 2
  rw [hc, List.map_append, List.map_cons, if_pos rfl]
  have key : ∀ l : List (Nat × α), (∀ y ∈ l, y.1 ≠ x.1) →
      l.map (fun y => if y.1 = x.1 then (x.1, v) else y) = l := by
    intro l hl
    refine (List.map_congr_left (g := id) fun y hy => ?_).trans (List.map_id l)
    exact if_neg (hl y hy)
  rw [key p (uniq_not (hc ▸ h)), key s (uniq_not' (uniq_right (hc ▸ h)))]

theorem putBefore_at (h : Uniq (p ++ s)) (y : Nat × α) : putBefore (hd s) y (p ++ s) = p ++ y :: s := by
  induction p with
  | nil =>
    cases s with
    | nil => rfl
    | cons x s => simp [putBefore, hd]
  | cons z p ih =>
    rw [List.cons_append, putBefore, if_neg]
    · rw [ih (uniq_right (p := [z]) h)]; rfl
    · cases s with
      | nil => simp [hd]
      | cons x s =>
        intro he
        exact uniq_not (p := z :: p) h z (by simp) (It.node.inj he).symm

theorem insert_at (h : Uniq c.cells) (hc : c.cells = p ++ s) (v : α) :
    c.insert (hd s) v = .ok ⟨p ++ (c.fresh, v) :: s, c.fresh + 1⟩ := by
  unfold insert
  simp only [has_hd h hc, if_true]
  rw [hc, putBefore_at (hc ▸ h)]

theorem same_at {t : List (Nat × α)} (h : Uniq c.cells) (hc : c.cells = p ++ (s ++ t)) :
    c.same (hd (s ++ t)) (hd t) = .ok (decide (s = [])) := by
  have h1 := has_hd h hc
  have h2 := has_hd (s := t) (p := p ++ s) h (by rw [hc, List.append_assoc])
  unfold same
  simp only [h1, h2, Bool.and_self, if_true]
  congr 1
  cases s with
  | nil => simp
  | cons x s =>
    have : hd (x :: s ++ t) ≠ hd t := by
      cases t with
      | nil => simp [hd]
      | cons y t =>
        intro he
        have hu : Uniq (x :: (s ++ y :: t)) := uniq_right (hc ▸ h)
        exact uniq_not' hu y (by simp) (It.node.inj he).symm
    rw [decide_eq_false this]; rfl

theorem same_end (h : Uniq c.cells) (hc : c.cells = p ++ s) : c.same (hd s) .fin = .ok (decide (s = [])) := by
  have := same_at (c := c) (p := p) (s := s) (t := []) h (by simpa using hc)
  rwa [List.append_nil] at this

theorem rep_sub {l l' : List α} {cells : List (Nat × α)} (h : Rep c l) (hs : cells.Sublist c.cells)
    (hl : cells.map Prod.snd = l') : Rep ⟨cells, c.fresh⟩ l' :=
  ⟨hl, uniq_sub h.nodup hs, fun x hx => h.old x (hs.subset hx)⟩

/-! ## Ranges -/
variable {V : Type} {m : Cont (Entry V)} {k : Int}

theorem range_split (hs : DAG.Sorted (m.cells.map Prod.snd)) (k : Int) :
    ∃ A B C, m.cells = A ++ (B ++ C) ∧ (∀ x ∈ A, x.2.key < k) ∧ (∀ x ∈ B, x.2.key = k) ∧ (∀ x ∈ C, k < x.2.key) ∧
      m.range k = (hd (B ++ C), hd C) := by
  have key : ∀ l : List (Nat × Entry V), DAG.Sorted (l.map Prod.snd) →
      ∃ A B C, l = A ++ (B ++ C) ∧ (∀ x ∈ A, x.2.key < k) ∧ (∀ x ∈ B, x.2.key = k) ∧ (∀ x ∈ C, k < x.2.key) ∧
        l.dropWhile (fun x => decide (x.2.key < k)) = B ++ C ∧ l.dropWhile (fun x => decide (x.2.key ≤ k)) = C := by
    intro l hl
    induction l with
    | nil => exact ⟨[], [], [], rfl, by simp, by simp, by simp, rfl, rfl⟩
    | cons x l ih =>
      have hx : (∀ e ∈ l.map Prod.snd, x.2.key ≤ e.key) ∧ DAG.Sorted (l.map Prod.snd) := List.pairwise_cons.mp hl
      obtain ⟨A, B, C, hc, hA, hB, hC, h1, h2⟩ := ih hx.2
      have hle : ∀ y ∈ l, x.2.key ≤ y.2.key := fun y hy => hx.1 y.2 (List.mem_map_of_mem hy)
      rcases lt_trichotomy x.2.key k with h | h | h
      · refine ⟨x :: A, B, C, by rw [hc]; rfl, ?_, hB, hC, ?_, ?_⟩
        · intro y hy
          rcases List.mem_cons.mp hy with rfl | hy
          · exact h
          · exact hA y hy
        · rw [List.dropWhile_cons_of_pos (by simpa using h), h1]
        · rw [List.dropWhile_cons_of_pos (by simpa using le_of_lt h), h2]
      · have hA' : A = [] := by
          cases A with
          | nil => rfl
          | cons y A =>
            have h3 := hA y (by simp)
            have h4 := hle y (by rw [hc]; simp)
            omega
        subst hA'
        refine ⟨[], x :: B, C, by rw [hc]; rfl, by simp, ?_, hC, ?_, ?_⟩
        · intro y hy
          rcases List.mem_cons.mp hy with rfl | hy
          · exact h
          · exact hB y hy
        · rw [List.dropWhile_cons_of_neg (by simp; omega), hc]; rfl
        · rw [List.dropWhile_cons_of_pos (by simp; omega), h2]
      · refine ⟨[], [], x :: l, rfl, by simp, by simp, ?_, ?_, ?_⟩
        · intro y hy
          rcases List.mem_cons.mp hy with rfl | hy
          · exact h
          · have := hle y hy; omega
        · rw [List.dropWhile_cons_of_neg (by simp; omega)]; rfl
        · rw [List.dropWhile_cons_of_neg (by simp; omega)]
  obtain ⟨A, B, C, hc, hA, hB, hC, h1, h2⟩ := key m.cells hs
  exact ⟨A, B, C, hc, hA, hB, hC, by rw [range, h1, h2]⟩

theorem equalRange_split {A B C : List (Nat × Entry V)} {l : List (Entry V)} (hr : m.cells.map Prod.snd = l)
    (hc : m.cells = A ++ (B ++ C)) (hA : ∀ x ∈ A, x.2.key < k) (hB : ∀ x ∈ B, x.2.key = k) (hC : ∀ x ∈ C, k < x.2.key) :
    DAG.equalRange l k = B.map Prod.snd := by
  rw [← hr, hc, DAG.equalRange, List.map_append, List.map_append, List.filter_append, List.filter_append,
    List.filter_eq_nil_iff.mpr, List.filter_eq_self.mpr, List.filter_eq_nil_iff.mpr, List.nil_append, List.append_nil]
  · intro e he
    obtain ⟨x, hx, rfl⟩ := List.mem_map.mp he
    have := hC x hx
    simp; omega
  · intro e he
    obtain ⟨x, hx, rfl⟩ := List.mem_map.mp he
    simpa using hB x hx
  · intro e he
    obtain ⟨x, hx, rfl⟩ := List.mem_map.mp he
    have := hA x hx
    simp; omega

theorem count_eq {l : List (Entry V)} (h : Rep m l) (k : Int) : m.count k = (DAG.equalRange l k).length := by
  rw [← h.vals, count, DAG.equalRange, List.filter_map, List.length_map]
  rfl

theorem putUpper_vals (y : Nat × Entry V) (l : List (Nat × Entry V)) :
    (putUpper y l).map Prod.snd = DAG.mmEmplace (l.map Prod.snd) y.2 := by
  induction l with
  | nil => rfl
  | cons x l ih =>
    rw [putUpper, List.map_cons, DAG.mmEmplace]
    split
    · rw [List.map_cons, ih]
    · rfl

theorem putUpper_perm (y : Nat × Entry V) (l : List (Nat × Entry V)) : (putUpper y l).Perm (y :: l) := by
  induction l with
  | nil => exact .refl _
  | cons x l ih =>
    rw [putUpper]
    split
    · exact (ih.cons x).trans (.swap y x l)
    · exact .refl _

theorem emplace_rep {l : List (Entry V)} (h : Rep m l) (e : Entry V) : Rep (m.emplace e) (DAG.mmEmplace l e) := by
  refine ⟨?_, ?_, ?_⟩
  · rw [← h.vals]; exact putUpper_vals _ _
  · have hp := (putUpper_perm (m.fresh, e) m.cells).map Prod.fst
    refine hp.nodup_iff.mpr ?_
    rw [List.map_cons, List.nodup_cons]
    refine ⟨fun hm => ?_, h.nodup⟩
    obtain ⟨x, hx, he⟩ := List.mem_map.mp hm
    have := h.old x hx
    simp only at he
    omega
  · intro x hx
    rcases List.mem_cons.mp ((putUpper_perm _ _).mem_iff.mp hx) with rfl | hx
    · exact Nat.lt_succ_self _
    · exact Nat.lt_succ_of_lt (h.old x hx)

end Cont

/-! ## DAGs -/

namespace IDag
open Cont
variable {V : Type} [CppEq V] {c : Cont (Entry V)} {C : List (Nat × Entry V)} {tg : Int} {v : V}

theorem exist_loop (hu : Uniq c.cells) : ∀ B p, c.cells = p ++ (B ++ C) →
    whileLoop (existStep c (hd C) tg v) (hd (B ++ C)) = .ok ((B.map Prod.snd).any (DAG.isMatch tg v)) := by
  intro B
  induction B with
  | nil =>
    intro p hc
    refine loop_leave ?_
    rw [existStep, same_at hu hc]
    rfl
  | cons x B ih =>
    intro p hc
    have hg := get_at (x := x) hu hc
    have hn := next_at (x := x) hu hc
    have hs : c.same (hd (x :: B ++ C)) (hd C) = .ok false := same_at hu hc
    have hc' : c.cells = (p ++ [x]) ++ (B ++ C) := by rw [hc]; simp
    rw [List.map_cons, List.any_cons]
    cases hm : DAG.isMatch tg v x.2 with
    | true =>
      refine loop_leave ?_
      rw [existStep, hs]
      show (c.get (.node x.1) >>= _) = _
      rw [hg]
      show (if DAG.isMatch tg v x.2 = true then _ else _) = _
      rw [hm]; rfl
    | false =>
      rw [loop_go (s' := hd (B ++ C)) ?_, ih _ hc']; · rfl
      rw [existStep, hs]
      show (c.get (.node x.1) >>= _) = _
      rw [hg]
      show (if DAG.isMatch tg v x.2 = true then _ else (c.next (.node x.1) >>= _)) = _
      rw [hm, hn]; rfl

theorem erase_loop : ∀ B p (c : Cont (Entry V)), Uniq c.cells → c.cells = p ++ (B ++ C) →
    whileLoop (eraseStep (hd C) tg v) (c, hd (B ++ C)) =
      .ok ⟨p ++ (B.eraseP (fun x => DAG.isMatch tg v x.2) ++ C), c.fresh⟩ := by
  intro B
  induction B with
  | nil =>
    intro p c hu hc
    refine loop_leave ?_
    show (c.same _ _ >>= _) = _
    rw [same_at hu hc]
    show Res.ok (Sum.inr c) = _
    rw [List.eraseP_nil, ← hc]
  | cons x B ih =>
    intro p c hu hc
    have hg := get_at (x := x) hu hc
    have hn := next_at (x := x) hu hc
    have he := erase_at (x := x) hu hc
    have hs : c.same (hd (x :: B ++ C)) (hd C) = .ok false := same_at hu hc
    have hc' : c.cells = (p ++ [x]) ++ (B ++ C) := by rw [hc]; simp
    cases hm : DAG.isMatch tg v x.2 with
    | true =>
      refine loop_leave ?_
      show (c.same _ _ >>= _) = _
      rw [hs]
      show (c.get (.node x.1) >>= _) = _
      rw [hg]
      show (if DAG.isMatch tg v x.2 = true then (c.erase (.node x.1) >>= _) else _) = _
      rw [hm, he, List.eraseP_cons_of_pos (by exact hm)]; rfl
    | false =>
      rw [loop_go (s' := (c, hd (B ++ C))) ?_, ih _ _ hu hc']
      · rw [List.eraseP_cons_of_neg (by rw [hm]; simp)]; simp
      show (c.same _ _ >>= _) = _
      rw [hs]
      show (c.get (.node x.1) >>= _) = _
      rw [hg]
      show (if DAG.isMatch tg v x.2 = true then _ else (c.next (.node x.1) >>= _)) = _
      rw [hm, hn]; rfl

omit [CppEq V] in
theorem eraseAll_loop : ∀ B p (c : Cont (Entry V)), Uniq c.cells → c.cells = p ++ (B ++ C) →
    whileLoop (eraseAllStep (hd C) tg) (c, hd (B ++ C)) =
      .ok ⟨p ++ (B.filter (fun x => !decide (x.2.target = tg)) ++ C), c.fresh⟩ := by
  intro B
  induction B with
  | nil =>
    intro p c hu hc
    refine loop_leave ?_
    show (c.same _ _ >>= _) = _
    rw [same_at hu hc]
    show Res.ok (Sum.inr c) = _
    rw [List.filter_nil, ← hc]
  | cons x B ih =>
    intro p c hu hc
    have hg := get_at (x := x) hu hc
    have hn := next_at (x := x) hu hc
    have he := erase_at (x := x) hu hc
    have hs : c.same (hd (x :: B ++ C)) (hd C) = .ok false := same_at hu hc
    have hc' : c.cells = (p ++ [x]) ++ (B ++ C) := by rw [hc]; simp
    by_cases hm : x.2.target = tg
    · rw [loop_go (s' := (⟨p ++ (B ++ C), c.fresh⟩, hd (B ++ C))) ?_,
        ih p ⟨p ++ (B ++ C), c.fresh⟩ (uniq_sub hu (by rw [hc]; simp)) rfl]
      · rw [List.filter_cons_of_neg (by simp [hm])]
      show (c.same _ _ >>= _) = _
      rw [hs]
      show (c.get (.node x.1) >>= _) = _
      rw [hg]
      show (if x.2.target = tg then (c.next (.node x.1) >>= _) else _) = _
      rw [if_pos hm, hn]
      show (c.erase (.node x.1) >>= _) = _
      rw [he]; rfl
    · rw [loop_go (s' := (c, hd (B ++ C))) ?_, ih _ _ hu hc']
      · rw [List.filter_cons_of_pos (by simp [hm])]; simp
      show (c.same _ _ >>= _) = _
      rw [hs]
      show (c.get (.node x.1) >>= _) = _
      rw [hg]
      show (if x.2.target = tg then _ else (c.next (.node x.1) >>= _)) = _
      rw [if_neg hm, hn]; rfl

variable {d : DAG V} {i : IDag V}

theorem exist_eq (h : RepD i d) (hs : DAG.Sorted d.mFrom) (src dst : Int) (v : V) :
    i.isEdgeExist src dst v = .ok (d.isEdgeExist src dst v) := by
  obtain ⟨A, B, C, hc, hA, hB, hC, hr⟩ := range_split (m := i.mFrom) (by rw [h.out.vals]; exact hs) src
  unfold isEdgeExist
  simp only [hr]
  rw [exist_loop h.out.nodup B A hc, DAG.isEdgeExist, equalRange_split h.out.vals hc hA hB hC]

theorem addEdge_rep (h : RepD i d) (hs : DAG.Sorted d.mFrom) (src dst : Int) (v : V) :
    ∃ i', i.addEdge src dst v = .ok i' ∧ RepD i' (d.addEdge src dst v).1 := by
  unfold addEdge DAG.addEdge
  rw [exist_eq h hs]
  cases hx : d.isEdgeExist src dst v with
  | true => exact ⟨i, rfl, h⟩
  | false => exact ⟨_, rfl, ⟨emplace_rep h.out _, emplace_rep h.inn _⟩⟩

theorem eraseFirst_eq {l : List (Entry V)} (h : Rep c l) (hs : DAG.Sorted l) (k tg : Int) (v : V) :
    eraseFirst c k tg v = .ok ⟨c.cells.eraseP (fun x => decide (x.2.key = k) && DAG.isMatch tg v x.2), c.fresh⟩ := by
  obtain ⟨A, B, C, hc, hA, hB, hC, hr⟩ := range_split (m := c) (by rw [h.vals]; exact hs) k
  unfold eraseFirst
  simp only [hr]
  rw [erase_loop B A c h.nodup hc]
  congr 2
  rw [hc, List.eraseP_append_right _ (fun x hx => by have := hA x hx; simp; omega)]
  congr 1
  have h1 : ∀ x ∈ C, ¬ (decide (x.2.key = k) && DAG.isMatch tg v x.2) = true := by
    intro x hx; have := hC x hx; simp; omega
  have key : ∀ B : List (Nat × Entry V), (∀ x ∈ B, x.2.key = k) → B.eraseP (fun x => DAG.isMatch tg v x.2) ++ C =
      (B ++ C).eraseP (fun x => decide (x.2.key = k) && DAG.isMatch tg v x.2) := by
    intro B hB
    induction B with
    | nil => rw [List.nil_append, List.eraseP_of_forall_not h1]; rfl
    | cons x B ih =>
      have hx := hB x (by simp)
      rw [List.cons_append]
      cases hm : DAG.isMatch tg v x.2 with
      | true => rw [List.eraseP_cons_of_pos (by exact hm), List.eraseP_cons_of_pos (by simp [hx, hm])]
      | false =>
        rw [List.eraseP_cons_of_neg (by simp [hm]), List.eraseP_cons_of_neg (by simp [hm]), List.cons_append,
          ih (fun y hy => hB y (List.mem_cons_of_mem _ hy))]
  exact key B hB

theorem eraseFirst_rep {l : List (Entry V)} (h : Rep c l) (hs : DAG.Sorted l) (k tg : Int) (v : V) :
    ∃ c', eraseFirst c k tg v = .ok c' ∧ Rep c' (DAG.eraseFirst l k tg v) := by
  refine ⟨_, eraseFirst_eq h hs k tg v, rep_sub h (List.eraseP_sublist ..) ?_⟩
  rw [DAG.eraseFirst, ← h.vals, List.eraseP_map]; rfl

theorem removeEdge_rep (h : RepD i d) (hs : DAG.Sorted d.mFrom) (ht : DAG.Sorted d.mTo) (src dst : Int) (v : V) :
    ∃ i', i.removeEdge src dst v = .ok i' ∧ RepD i' (d.removeEdge src dst v).1 := by
  obtain ⟨f, hf, hf'⟩ := eraseFirst_rep h.out hs src dst v
  obtain ⟨t, ht, ht'⟩ := eraseFirst_rep h.inn ht dst src v
  refine ⟨⟨f, t⟩, ?_, hf', ht'⟩
  unfold removeEdge
  rw [hf, ht]; rfl

omit [CppEq V] in
theorem eraseAll_rep {l : List (Entry V)} (h : Rep c l) (hs : DAG.Sorted l) (k tg : Int) :
    ∃ c', eraseAll c k tg = .ok c' ∧ Rep c' (DAG.eraseAll l k tg) := by
  obtain ⟨A, B, C, hc, hA, hB, hC, hr⟩ := range_split (m := c) (by rw [h.vals]; exact hs) k
  refine ⟨⟨A ++ (B.filter (fun x => !decide (x.2.target = tg)) ++ C), c.fresh⟩, ?_, ?_⟩
  · unfold eraseAll
    simp only [hr]
    exact eraseAll_loop B A c h.nodup hc
  · refine rep_sub h ?_ ?_
    · rw [hc]
      exact (List.Sublist.refl A).append ((List.filter_sublist ..).append (List.Sublist.refl C))
    · rw [DAG.eraseAll, ← h.vals, hc]
      simp only [List.map_append, List.filter_append]
      congr 1
      · symm
        rw [List.filter_eq_self]
        intro e he
        obtain ⟨x, hx, rfl⟩ := List.mem_map.mp he
        have := hA x hx
        simp; omega
      congr 1
      · rw [List.filter_map]
        congr 1
        refine List.filter_congr fun x hx => ?_
        have := hB x hx
        simp [this]
      · symm
        rw [List.filter_eq_self]
        intro e he
        obtain ⟨x, hx, rfl⟩ := List.mem_map.mp he
        have := hC x hx
        simp; omega

omit [CppEq V] in
theorem removeDirectEdges_rep (h : RepD i d) (hs : DAG.Sorted d.mFrom) (ht : DAG.Sorted d.mTo) (src dst : Int) :
    ∃ i', i.removeDirectEdges src dst = .ok i' ∧ RepD i' (d.removeDirectEdges src dst).1 := by
  obtain ⟨f, hf, hf'⟩ := eraseAll_rep h.out hs src dst
  obtain ⟨t, ht, ht'⟩ := eraseAll_rep h.inn ht dst src
  refine ⟨⟨f, t⟩, ?_, hf', ht'⟩
  unfold removeDirectEdges
  rw [hf, ht]; rfl

theorem sorted_addEdge (h : DAG.Sorted d.mFrom) (src dst : Int) (v : V) : DAG.Sorted (d.addEdge src dst v).1.mFrom := by
  unfold DAG.addEdge
  split
  · exact h
  · exact DAG.Sorted.emplace h _

/-- A loop that adds an edge for every element of another container. -/
theorem add_loop {U : Type} {o : Cont (Entry U)} {g : Entry U → Int × Int × V}
    {step : IDag V × It → Res ((IDag V × It) ⊕ IDag V)}
    (hstep : ∀ i it, step (i, it) = (do
      if ← o.same it .fin then pure (.inr i)
      else
        let x ← o.get it
        let i ← i.addEdge (g x).1 (g x).2.1 (g x).2.2
        pure (.inl (i, ← o.next it)))) (hu : Uniq o.cells) :
    ∀ s p (i : IDag V) (d : DAG V), o.cells = p ++ s → RepD i d → DAG.Sorted d.mFrom →
      ∃ i', whileLoop step (i, hd s) = .ok i' ∧
        RepD i' ((s.map Prod.snd).foldl (fun d x => (d.addEdge (g x).1 (g x).2.1 (g x).2.2).1) d) := by
  intro s
  induction s with
  | nil =>
    intro p i d hc h _
    refine ⟨i, loop_leave ?_, h⟩
    rw [hstep, same_end hu hc]; rfl
  | cons x s ih =>
    intro p i d hc h hs
    obtain ⟨i1, h1, hr1⟩ := addEdge_rep h hs (g x.2).1 (g x.2).2.1 (g x.2).2.2
    obtain ⟨i2, h2, hr2⟩ := ih (p ++ [x]) i1 _ (by rw [hc]; simp) hr1 (sorted_addEdge hs _ _ _)
    refine ⟨i2, ?_, hr2⟩
    rw [loop_go (s' := (i1, hd s)) ?_, h2]
    have hsame : o.same (hd (x :: s)) .fin = .ok false := same_end hu hc
    rw [hstep, hsame]
    show (o.get (.node x.1) >>= _) = _
    rw [get_at hu hc]
    show (i.addEdge (g x.2).1 (g x.2).2.1 (g x.2).2.2 >>= fun i => o.next (.node x.1) >>= _) = _
    rw [h1]
    show (o.next (.node x.1) >>= _) = _
    rw [next_at hu hc]; rfl

theorem unionDAG_rep {o : IDag V} {e : DAG V} (h : RepD i d) (hs : DAG.Sorted d.mFrom) (ho : RepD o e) :
    ∃ i', i.unionDAG o = .ok i' ∧ RepD i' (d.unionDAG e) := by
  obtain ⟨i', h1, h2⟩ := add_loop (o := o.mFrom) (g := fun x => (x.key, x.target, x.val)) (step := unionStep o)
    (fun _ _ => rfl) ho.out.nodup o.mFrom.cells [] i d rfl h hs
  exact ⟨i', h1, by rw [DAG.unionDAG, ← ho.out.vals]; exact h2⟩

end IDag

end Thpronun
