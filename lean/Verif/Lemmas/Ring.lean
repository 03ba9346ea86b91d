import Verif.Spec.Ring
import Verif.Lemmas.Frac

/-! # Lemmas on merging in graphs with cycles -/

namespace Thpronun
open Res Spec

/-- One edge only leaves `v`: to `x`. -/
def OneOut (R : Int → Int → SylString → Prop) (v x : Int) : Prop := ∃ s, ∀ y c, R v y c ↔ y = x ∧ SylString.eq s c = true

/-- One edge only reaches `v`: from `u`. -/
def OneIn (R : Int → Int → SylString → Prop) (v u : Int) : Prop := ∃ s, ∀ y c, R y v c ↔ y = u ∧ SylString.eq s c = true

def RingR (R : Int → Int → SylString → Prop) (L : Int → Prop) : Prop :=
  (∃ v, L v) ∧ ∀ v, L v → (∃ x, L x ∧ OneOut R v x) ∧ ∃ u, L u ∧ OneIn R v u

def EndlessR (R : Int → Int → SylString → Prop) (L : Int → Prop) : Prop :=
  (∃ v, L v) ∧ ∀ v, L v → (∃ x c, R v x c) ∧ (∃ u c, R u v c) ∧ (∀ x c, R v x c → L x) ∧ ∀ u c, R u v c → L u

/-- The first syllable decides where an edge leads. -/
def UnequivocalR (R : Int → Int → SylString → Prop) : Prop :=
  ∀ v x y c c', R v x c → R v y c' → ∃ a s a' s', c = a :: s ∧ c' = a' :: s' ∧ (ceq a a' = true → x = y)

/-- What a step of merging does to the graph: `u → n → x` becomes `u → x`. -/
structure Step (R R' : Int → Int → SylString → Prop) (n u x : Int) (a b : SylString) : Prop where
  u_ne : u ≠ n
  x_ne : x ≠ n
  into : ∀ w c, R w n c ↔ w = u ∧ SylString.eq a c = true
  out : ∀ w c, R n w c ↔ w = x ∧ SylString.eq b c = true
  new : ∀ v w c, R' v w c ↔ (R v w c ∧ v ≠ n ∧ w ≠ n) ∨ (v = u ∧ w = x ∧ SylString.eq (a ++ b) c = true)

namespace Step
variable {R R' : Int → Int → SylString → Prop} {n u x : Int} {a b : SylString} (S : Step R R' n u x a b)
include S

theorem un : R u n a := (S.into u a).mpr ⟨rfl, SylString.eq_refl a⟩
theorem nx : R n x b := (S.out x b).mpr ⟨rfl, SylString.eq_refl b⟩
theorem ux : R' u x (a ++ b) := (S.new _ _ _).mpr (.inr ⟨rfl, rfl, SylString.eq_refl _⟩)

theorem not_n {w c} : ¬ R' n w c := fun h => by
  rcases (S.new _ _ _).mp h with h | h
  · exact h.2.1 rfl
  · exact S.u_ne h.1.symm

/-- Away from the step nothing changes. -/
theorem out_same {v y : Int} {c : SylString} (h1 : v ≠ n) (h2 : v ≠ u) : R' v y c ↔ R v y c := by
  rw [S.new]
  refine ⟨fun h => ?_, fun h => .inl ⟨h, h1, fun e => ?_⟩⟩
  · rcases h with h | h
    · exact h.1
    · exact absurd h.1 h2
  · subst e; exact h2 ((S.into _ _).mp h).1

theorem in_same {v y : Int} {c : SylString} (h1 : v ≠ n) (h2 : v ≠ x) : R' y v c ↔ R y v c := by
  rw [S.new]
  refine ⟨fun h => ?_, fun h => .inl ⟨h, fun e => ?_, h1⟩⟩
  · rcases h with h | h
    · exact h.1
    · exact absurd h.2.1 h2
  · subst e; exact h2 ((S.out _ _).mp h).1

theorem ring {L : Int → Prop} (h : RingR R L) : ∃ L', RingR R' L' := by
  obtain ⟨⟨v0, hv0⟩, h⟩ := h
  by_cases hn : L n
  · have hx : L x := by
      obtain ⟨⟨y, hy, s, hs⟩, -⟩ := h n hn
      rw [((hs x b).mp S.nx).1]; exact hy
    have hu : L u := by
      obtain ⟨-, y, hy, s, hs⟩ := h n hn
      rw [((hs u a).mp S.un).1]; exact hy
    refine ⟨fun v => L v ∧ v ≠ n, ⟨u, hu, S.u_ne⟩, fun v hv => ?_⟩
    obtain ⟨⟨y, hy, s, hs⟩, z, hz, s', hs'⟩ := h v hv.1
    constructor
    · by_cases hvu : v = u
      · subst hvu
        have hyn : y = n := ((hs n a).mp S.un).1.symm
        refine ⟨x, ⟨hx, S.x_ne⟩, a ++ b, fun w c => ?_⟩
        rw [S.new]
        constructor
        · rintro (⟨k1, -, k2⟩ | ⟨-, k⟩)
          · exact absurd (((hs w c).mp k1).1.trans hyn) k2
          · exact k
        · exact fun k => .inr ⟨rfl, k⟩
      · refine ⟨y, ⟨hy, fun e => hvu ?_⟩, s, fun w c => (S.out_same hv.2 hvu).trans (hs w c)⟩
        exact ((S.into v s).mp (e ▸ (hs y s).mpr ⟨rfl, SylString.eq_refl s⟩)).1
    · by_cases hvx : v = x
      · subst hvx
        have hzn : z = n := ((hs' n b).mp S.nx).1.symm
        refine ⟨u, ⟨hu, S.u_ne⟩, a ++ b, fun w c => ?_⟩
        rw [S.new]
        constructor
        · rintro (⟨k1, k2, -⟩ | ⟨k1, -, k2⟩)
          · exact absurd (((hs' w c).mp k1).1.trans hzn) k2
          · exact ⟨k1, k2⟩
        · exact fun k => .inr ⟨k.1, rfl, k.2⟩
      · refine ⟨z, ⟨hz, fun e => hvx ?_⟩, s', fun w c => (S.in_same hv.2 hvx).trans (hs' w c)⟩
        exact ((S.out v s').mp (e ▸ (hs' z s').mpr ⟨rfl, SylString.eq_refl s'⟩)).1
  · refine ⟨L, ⟨v0, hv0⟩, fun v hv => ?_⟩
    have hvn : v ≠ n := fun e => hn (e ▸ hv)
    obtain ⟨⟨y, hy, s, hs⟩, z, hz, s', hs'⟩ := h v hv
    have hvu : v ≠ u := fun e => hn (by subst e; rw [((hs n a).mp S.un).1]; exact hy)
    have hvx : v ≠ x := fun e => hn (by subst e; rw [((hs' n b).mp S.nx).1]; exact hz)
    exact ⟨⟨y, hy, s, fun w c => (S.out_same hvn hvu).trans (hs w c)⟩, z, hz, s', fun w c => (S.in_same hvn hvx).trans (hs' w c)⟩

theorem endless {L : Int → Prop} (h : EndlessR R' L) : ∃ L, EndlessR R L := by
  obtain ⟨⟨v0, hv0⟩, h⟩ := h
  have hn : ¬ L n := fun k => by obtain ⟨⟨y, c, k⟩, -⟩ := h n k; exact S.not_n k
  have hux : L u → L x := fun k => (h u k).2.2.1 x _ S.ux
  have hxu : L x → L u := fun k => (h x k).2.2.2 u _ S.ux
  refine ⟨fun v => L v ∨ (v = n ∧ L u), ⟨v0, .inl hv0⟩, fun v hv => ?_⟩
  rcases hv with hv | ⟨rfl, hu⟩
  · have hvn : v ≠ n := fun e => hn (e ▸ hv)
    obtain ⟨⟨y, c, k1⟩, ⟨z, c', k2⟩, k3, k4⟩ := h v hv
    refine ⟨?_, ?_, fun w c k => ?_, fun w c k => ?_⟩
    · rcases (S.new _ _ _).mp k1 with k | ⟨rfl, -⟩
      · exact ⟨y, c, k.1⟩
      · exact ⟨n, a, S.un⟩
    · rcases (S.new _ _ _).mp k2 with k | ⟨-, rfl, -⟩
      · exact ⟨z, c', k.1⟩
      · exact ⟨n, b, S.nx⟩
    · by_cases hw : w = n
      · subst hw
        exact .inr ⟨rfl, ((S.into _ _).mp k).1 ▸ hv⟩
      · exact .inl (k3 w c ((S.new _ _ _).mpr (.inl ⟨k, hvn, hw⟩)))
    · by_cases hw : w = n
      · subst hw
        exact .inr ⟨rfl, hxu (((S.out _ _).mp k).1 ▸ hv)⟩
      · exact .inl (k4 w c ((S.new _ _ _).mpr (.inl ⟨k, hw, hvn⟩)))
  · exact ⟨⟨x, b, S.nx⟩, ⟨u, a, S.un⟩, fun w c k => .inl (((S.out _ _).mp k).1 ▸ hux hu),
      fun w c k => .inl (((S.into _ _).mp k).1 ▸ hu)⟩

omit S in
theorem head_eq {s c : SylString} {y : Syl} {t : SylString} {y' : Syl} (h : SylString.eq (y :: s) c = true) (hc : c = y' :: t) : ceq y y' = true := by
  subst hc
  rw [SylString.eq_iff] at h
  cases h with
  | cons h _ => exact h

theorem uneq (hR : UnequivocalR R) : UnequivocalR R' := by
  obtain ⟨a0, a1, -, -, ha, -⟩ := hR u n n a a S.un S.un
  -- the edges of the new graph, with the first syllable of an edge of the old one
  have key : ∀ {v w c}, R' v w c → ∃ w' c' y s y' s', R v w' c' ∧ c = y :: s ∧ c' = y' :: s' ∧ ceq y' y = true ∧
      ((w' = w ∧ w ≠ n) ∨ (w' = n ∧ v = u ∧ w = x)) := by
    intro v w c h
    rcases (S.new _ _ _).mp h with ⟨h1, h2, h3⟩ | ⟨rfl, rfl, h⟩
    · obtain ⟨y, s, -, -, hy, -⟩ := hR _ _ _ _ _ h1 h1
      exact ⟨w, c, y, s, y, s, h1, hy, hy, LawfulCppEq.refl _, .inl ⟨rfl, h3⟩⟩
    · rw [ha, List.cons_append] at h
      cases c with
      | nil => rw [SylString.eq_iff] at h; cases h
      | cons y s => exact ⟨n, a, y, s, a0, a1, S.un, rfl, ha, head_eq h rfl, .inr ⟨rfl, rfl, rfl⟩⟩
  intro v w w1 c c1 h h1
  obtain ⟨p, d, y, s, y', s', k1, k2, k3, k4, k5⟩ := key h
  obtain ⟨p1, d1, z, r, z', r', l1, l2, l3, l4, l5⟩ := key h1
  refine ⟨y, s, z, r, k2, l2, fun hyz => ?_⟩
  obtain ⟨g, gs, g', gs', e1, e2, e3⟩ := hR _ _ _ _ _ k1 l1
  rw [k3] at e1; cases e1
  rw [l3] at e2; cases e2
  have hp : p = p1 := e3 (LawfulCppEq.trans k4 (LawfulCppEq.trans hyz (LawfulCppEq.symm l4)))
  rcases k5 with ⟨rfl, k5⟩ | ⟨rfl, -, rfl⟩ <;> rcases l5 with ⟨rfl, l5⟩ | ⟨rfl, -, rfl⟩
  · exact hp
  · exact absurd hp k5
  · exact absurd hp.symm l5
  · rfl

theorem ring_back (hR : UnequivocalR R) {L : Int → Prop} (h : RingR R' L) : ∃ L, RingR R L := by
  obtain ⟨⟨v0, hv0⟩, h⟩ := h
  have hn : ¬ L n := fun k => by
    obtain ⟨⟨y, -, s, hs⟩, -⟩ := h n k
    exact S.not_n ((hs y s).mpr ⟨rfl, SylString.eq_refl s⟩)
  -- no edge beside the new one has the same syllables
  have alone : ∀ {w c}, R u w c → SylString.eq (a ++ b) c = true → w = n := by
    intro w c k1 k2
    obtain ⟨y, s, y', s', e1, e2, e3⟩ := hR _ _ _ _ _ S.un k1
    subst e1
    exact (e3 (head_eq k2 e2)).symm
  by_cases hu : L u
  · obtain ⟨⟨y, hy, s, hs⟩, -⟩ := h u hu
    have hyx : x = y := ((hs x (a ++ b)).mp S.ux).1
    have hsab := ((hs x (a ++ b)).mp S.ux).2
    subst hyx
    have hun : OneOut R u n := by
      refine ⟨a, fun w c => ⟨fun k => ?_, fun ⟨k1, k2⟩ => k1 ▸ (S.into u c).mpr ⟨rfl, k2⟩⟩⟩
      have hw : w = n := by
        by_contra hw
        obtain ⟨k1, k2⟩ := (hs w c).mp ((S.new _ _ _).mpr (.inl ⟨k, S.u_ne, hw⟩))
        exact hw (alone k (SylString.eq_trans (SylString.eq_symm hsab) k2))
      subst hw
      exact ⟨rfl, ((S.into u c).mp k).2⟩
    have hxn : OneIn R x n := by
      obtain ⟨-, z, hz, r, hr⟩ := h x hy
      have hrab := ((hr u (a ++ b)).mp S.ux)
      refine ⟨b, fun w c => ⟨fun k => ?_, fun ⟨k1, k2⟩ => k1 ▸ (S.out x c).mpr ⟨rfl, k2⟩⟩⟩
      have hw : w = n := by
        by_contra hw
        obtain ⟨k1, k2⟩ := (hr w c).mp ((S.new _ _ _).mpr (.inl ⟨k, hw, S.x_ne⟩))
        have e : w = u := k1.trans hrab.1.symm
        subst e
        exact S.x_ne (alone k (SylString.eq_trans (SylString.eq_symm hrab.2) k2))
      subst hw
      exact ⟨rfl, ((S.out x c).mp k).2⟩
    refine ⟨fun v => L v ∨ v = n, ⟨v0, .inl hv0⟩, fun v hv => ?_⟩
    rcases hv with hv | rfl
    · have hvn : v ≠ n := fun e => hn (e ▸ hv)
      obtain ⟨⟨y, hy, s, hs⟩, z, hz, s', hs'⟩ := h v hv
      constructor
      · by_cases hvu : v = u
        · subst hvu; exact ⟨n, .inr rfl, hun⟩
        · exact ⟨y, .inl hy, s, fun w c => (S.out_same hvn hvu).symm.trans (hs w c)⟩
      · by_cases hvx : v = x
        · subst hvx; exact ⟨n, .inr rfl, hxn⟩
        · exact ⟨z, .inl hz, s', fun w c => (S.in_same hvn hvx).symm.trans (hs' w c)⟩
    · exact ⟨⟨x, .inl hy, b, S.out⟩, u, .inl hu, a, S.into⟩
  · have hx : ¬ L x := fun k => hu (by
      obtain ⟨-, z, hz, r, hr⟩ := h x k
      rw [((hr u (a ++ b)).mp S.ux).1]; exact hz)
    refine ⟨L, ⟨v0, hv0⟩, fun v hv => ?_⟩
    have hvn : v ≠ n := fun e => hn (e ▸ hv)
    have hvu : v ≠ u := fun e => hu (e ▸ hv)
    have hvx : v ≠ x := fun e => hx (e ▸ hv)
    obtain ⟨⟨y, hy, s, hs⟩, z, hz, s', hs'⟩ := h v hv
    exact ⟨⟨y, hy, s, fun w c => (S.out_same hvn hvu).symm.trans (hs w c)⟩, z, hz, s',
      fun w c => (S.in_same hvn hvx).symm.trans (hs' w c)⟩

end Step

/-! ## Graphs of single alternatives -/

section
variable {V : Type} [CppEq V] [LawfulCppEq V] {alts : V → List SylString} {d : DAG V}

/-- Every edge has one alternative, which decides whether edges are equal. -/
structure OneEach (alts : V → List SylString) (d : DAG V) : Prop where
  coh : DAG.Coh d
  one : ∀ e ∈ d.mFrom, ∃ s, alts e.val = [s]
  eq : ∀ x y s s', alts x = [s] → alts y = [s'] → SylString.eq s s' = true → ceq x y = true
  eq' : ∀ x y s s', alts x = [s] → alts y = [s'] → ceq x y = true → SylString.eq s s' = true

theorem OneEach.altRel_iff (H : OneEach alts d) {u v : Int} {c : SylString} :
    altRel alts d u v c ↔ ∃ e ∈ d.mFrom, e.key = u ∧ e.target = v ∧ ∃ s, alts e.val = [s] ∧ SylString.eq s c = true := by
  unfold altRel
  constructor
  · rintro ⟨e, he, ht, b, hb, h⟩
    obtain ⟨h1, h2⟩ := DAG.mem_outEdges.mp he
    obtain ⟨s, hs⟩ := H.one e h1
    rw [hs, List.mem_singleton] at hb
    exact ⟨e, h1, h2, ht, s, hs, hb ▸ h⟩
  · rintro ⟨e, h1, h2, ht, s, hs, h⟩
    exact ⟨e, DAG.mem_outEdges.mpr ⟨h1, h2⟩, ht, s, by rw [hs]; exact List.mem_singleton.mpr rfl, h⟩

theorem OneEach.out_iff (H : OneEach alts d) {v x : Int} :
    (∃ e, d.outEdges v = [e] ∧ e.target = x) ↔ OneOut (altRel alts d) v x := by
  constructor
  · rintro ⟨e, he, rfl⟩
    have hm : e ∈ d.outEdges v := by rw [he]; exact List.mem_singleton.mpr rfl
    obtain ⟨s, hs⟩ := H.one e (DAG.mem_outEdges.mp hm).1
    refine ⟨s, fun y c => ?_⟩
    unfold altRel
    rw [he]
    simp only [List.mem_singleton, exists_eq_left, hs]
    exact and_congr_left fun _ => eq_comm
  · rintro ⟨s, h⟩
    obtain ⟨e, h1, h2, h3, -⟩ := H.altRel_iff.mp ((h x s).mpr ⟨rfl, SylString.eq_refl s⟩)
    have hm : e ∈ d.outEdges v := DAG.mem_outEdges.mpr ⟨h1, h2⟩
    have hall : ∀ e' ∈ d.outEdges v, e'.target = x ∧ ∃ s', alts e'.val = [s'] ∧ SylString.eq s s' = true := by
      intro e' he'
      obtain ⟨k1, k2⟩ := DAG.mem_outEdges.mp he'
      obtain ⟨s', hs'⟩ := H.one e' k1
      obtain ⟨k3, k4⟩ := (h e'.target s').mp (H.altRel_iff.mpr ⟨e', k1, k2, rfl, s', hs', SylString.eq_refl s'⟩)
      exact ⟨k3, s', hs', k4⟩
    have hp : (d.outEdges v).Pairwise fun a b => ¬ DAG.Same a b := by
      have : (d.outEdges v).Sublist d.mFrom := List.filter_sublist
      exact H.coh.distinct.sublist this
    have hk : ∀ e' ∈ d.outEdges v, e'.key = v := fun e' he' => (DAG.mem_outEdges.mp he').2
    cases hl : d.outEdges v with
    | nil => rw [hl] at hm; cases hm
    | cons e1 l =>
      rw [hl] at hp hall hk
      cases l with
      | nil => exact ⟨e1, rfl, (hall e1 (by simp)).1⟩
      | cons e2 l =>
        exfalso
        obtain ⟨k1, s1, k2, k3⟩ := hall e1 (by simp)
        obtain ⟨l1, s2, l2, l3⟩ := hall e2 (by simp)
        refine (List.pairwise_cons.mp hp).1 e2 (by simp) ⟨(hk e1 (by simp)).trans (hk e2 (by simp)).symm, k1.trans l1.symm, ?_⟩
        exact H.eq _ _ s1 s2 k2 l2 (SylString.eq_trans (SylString.eq_symm k3) l3)

theorem OneEach.in_iff (H : OneEach alts d) {v x : Int} :
    (∃ e, d.inEdges v = [e] ∧ e.target = x) ↔ OneIn (altRel alts d) v x := by
  have hr : ∀ {y c}, altRel alts d y v c ↔ ∃ e ∈ d.inEdges v, e.target = y ∧ ∃ s, alts e.val = [s] ∧ SylString.eq s c = true := by
    intro y c
    rw [H.altRel_iff]
    constructor
    · rintro ⟨e, h1, h2, h3, h4⟩
      exact ⟨⟨e.target, e.key, e.val⟩, DAG.mem_inEdges.mpr ⟨H.coh.mem_swap.mpr h1, h3⟩, h2, h4⟩
    · rintro ⟨e, h1, h2, h3⟩
      obtain ⟨k1, k2⟩ := DAG.mem_inEdges.mp h1
      exact ⟨⟨e.target, e.key, e.val⟩, H.coh.mem_swap.mp k1, h2, k2, h3⟩
  have hone : ∀ e ∈ d.inEdges v, ∃ s, alts e.val = [s] := by
    intro e he
    obtain ⟨k1, k2⟩ := DAG.mem_inEdges.mp he
    exact H.one (DAG.Entry.swap e) (H.coh.mem_swap.mp k1)
  constructor
  · rintro ⟨e, he, rfl⟩
    obtain ⟨s, hs⟩ := hone e (by rw [he]; exact List.mem_singleton.mpr rfl)
    refine ⟨s, fun y c => ?_⟩
    rw [hr, he]
    constructor
    · rintro ⟨e', h1, h2, s', h3, h4⟩
      cases List.mem_singleton.mp h1
      rw [hs] at h3; cases h3
      exact ⟨h2.symm, h4⟩
    · rintro ⟨h1, h2⟩
      exact ⟨e, List.mem_singleton.mpr rfl, h1.symm, s, hs, h2⟩
  · rintro ⟨s, h⟩
    obtain ⟨e, hm, -⟩ := hr.mp ((h x s).mpr ⟨rfl, SylString.eq_refl s⟩)
    have hall : ∀ e' ∈ d.inEdges v, e'.target = x ∧ ∃ s', alts e'.val = [s'] ∧ SylString.eq s s' = true := by
      intro e' he'
      obtain ⟨s', hs'⟩ := hone e' he'
      obtain ⟨k3, k4⟩ := (h e'.target s').mp (hr.mpr ⟨e', he', rfl, s', hs', SylString.eq_refl s'⟩)
      exact ⟨k3, s', hs', k4⟩
    have hp : (d.inEdges v).Pairwise fun a b => ¬ DAG.Same a b := by
      have : (d.inEdges v).Sublist d.mTo := List.filter_sublist
      refine List.Pairwise.sublist this ?_
      have h1 : (d.mTo.map DAG.Entry.swap).Pairwise fun a b => ¬ DAG.Same a b :=
        (H.coh.perm.pairwise_iff fun {a b} hab hba => hab ⟨hba.1.symm, hba.2.1.symm, LawfulCppEq.symm hba.2.2⟩).mpr H.coh.distinct
      rw [List.pairwise_map] at h1
      exact h1.imp fun {a b} hab hba => hab ⟨hba.2.1, hba.1, hba.2.2⟩
    have hk : ∀ e' ∈ d.inEdges v, e'.key = v := fun e' he' => (DAG.mem_inEdges.mp he').2
    cases hl : d.inEdges v with
    | nil => rw [hl] at hm; cases hm
    | cons e1 l =>
      rw [hl] at hp hall hk
      cases l with
      | nil => exact ⟨e1, rfl, (hall e1 (by simp)).1⟩
      | cons e2 l =>
        exfalso
        obtain ⟨k1, s1, k2, k3⟩ := hall e1 (by simp)
        obtain ⟨l1, s2, l2, l3⟩ := hall e2 (by simp)
        refine (List.pairwise_cons.mp hp).1 e2 (by simp) ⟨(hk e1 (by simp)).trans (hk e2 (by simp)).symm, k1.trans l1.symm, ?_⟩
        exact H.eq _ _ s1 s2 k2 l2 (SylString.eq_trans (SylString.eq_symm k3) l3)

end

theorem singles_oneEach {d : FracDAG} (hc : DAG.Coh d) (hs : Singles d) : OneEach PronunFrac.alts d where
  coh := hc
  one e he := List.length_eq_one_iff.mp (hs e he).1
  eq x y s s' h1 h2 h := (PronunFrac.altsEq_iff _ _).mpr (by rw [h1, h2]; exact .cons h .nil)
  eq' x y s s' h1 h2 h := by
    have := (PronunFrac.altsEq_iff _ _).mp h
    rw [h1, h2] at this
    cases this with
    | cons h _ => exact h

theorem syl_oneEach {d : PronunDAG} (hc : DAG.Coh d) : OneEach sylAlts d where
  coh := hc
  one e _ := ⟨[e.val], rfl⟩
  eq x y s s' h1 h2 h := by
    cases h1; cases h2
    rw [SylString.eq_iff] at h
    cases h with
    | cons h _ => exact h
  eq' x y s s' h1 h2 h := by
    cases h1; cases h2
    rw [SylString.eq_iff]
    exact .cons h .nil

/-! ## The loop -/

namespace FracDAG

theorem step_of {d : FracDAG} (hc : DAG.Coh d) (hs : Singles d) (it : Entry PronunFrac)
    (hit : it ∈ d.mFrom) (hp : isPass d it = true) (hself : it.target ≠ it.key) :
    ∃ d' u a b, mergeAt d it = .ok d' ∧ DAG.Coh d' ∧ Singles d' ∧ d'.mFrom.length < d.mFrom.length ∧
      Step (altRel PronunFrac.alts d) (altRel PronunFrac.alts d') it.key u it.target a b := by
  obtain ⟨d', u, a, b, h1, h2, h3, h4, h5, h6, h7, h8, h9, h10, -⟩ := mergeAt_spec hc hs it hit hp hself
  exact ⟨d', u, a, b, h1, h2, h3, h4, h5, hself, h8, h9, h10⟩

theorem pass_iff {d : FracDAG} (hc : DAG.Coh d) (hs : Singles d) (it : Entry PronunFrac) :
    isPass d it = true ↔ (∃ x, OneOut (altRel PronunFrac.alts d) it.key x) ∧ ∃ u, OneIn (altRel PronunFrac.alts d) it.key u := by
  have H := singles_oneEach hc hs
  simp only [isPass, Bool.and_eq_true, decide_eq_true_eq, ← H.out_iff, ← H.in_iff]
  refine and_congr ?_ ?_
  · unfold DAG.outDegree
    rw [List.length_eq_one_iff]
    exact ⟨fun ⟨e, h⟩ => ⟨_, e, h, rfl⟩, fun ⟨_, e, h, _⟩ => ⟨e, h⟩⟩
  · unfold DAG.inDegree
    rw [List.length_eq_one_iff]
    exact ⟨fun ⟨e, h⟩ => ⟨_, e, h, rfl⟩, fun ⟨_, e, h, _⟩ => ⟨e, h⟩⟩

/-- A self-loop at a node without other edges. -/
theorem self_ub {d : FracDAG} (hc : DAG.Coh d) {it : Entry PronunFrac} (hit : it ∈ d.mFrom) (hp : isPass d it = true)
    (hself : it.target = it.key) : mergeAt d it = .ub := by
  have hin : d.inDegree it.key = 1 := by
    simp only [isPass, Bool.and_eq_true, decide_eq_true_eq] at hp; exact hp.2
  obtain ⟨inIt, hinl⟩ := List.length_eq_one_iff.mp hin
  have hm : (⟨it.target, it.key, it.val⟩ : Entry PronunFrac) ∈ d.inEdges it.key :=
    DAG.mem_inEdges.mpr ⟨hc.mem_swap.mpr hit, hself⟩
  rw [hinl, List.mem_singleton] at hm
  unfold mergeAt
  rw [hinl, ← hm]
  simp only
  split <;> simp

theorem self_ring {d : FracDAG} (hc : DAG.Coh d) (hs : Singles d) {it : Entry PronunFrac} (hit : it ∈ d.mFrom) (hp : isPass d it = true)
    (hself : it.target = it.key) : RingR (altRel PronunFrac.alts d) fun v => v = it.key := by
  obtain ⟨⟨x, s, hx⟩, u, s', hu⟩ := (pass_iff hc hs it).mp hp
  obtain ⟨r, hr⟩ := (singles_oneEach hc hs).one it hit
  have hloop : altRel PronunFrac.alts d it.key it.key r :=
    (singles_oneEach hc hs).altRel_iff.mpr ⟨it, hit, rfl, hself, r, hr, SylString.eq_refl r⟩
  have h1 := ((hx _ _).mp hloop).1
  have h2 := ((hu _ _).mp hloop).1
  refine ⟨⟨_, rfl⟩, fun v hv => ?_⟩
  subst hv
  exact ⟨⟨x, h1.symm, s, hx⟩, u, h2.symm, s', hu⟩

theorem RingR.endless {R : Int → Int → SylString → Prop} {L : Int → Prop} (h : RingR R L) : EndlessR R L := by
  refine ⟨h.1, fun v hv => ?_⟩
  obtain ⟨⟨x, hx, s, h1⟩, u, hu, s', h2⟩ := h.2 v hv
  exact ⟨⟨x, s, (h1 x s).mpr ⟨rfl, SylString.eq_refl s⟩⟩, ⟨u, s', (h2 u s').mpr ⟨rfl, SylString.eq_refl s'⟩⟩,
    fun y c k => ((h1 y c).mp k).1 ▸ hx, fun y c k => ((h2 y c).mp k).1 ▸ hu⟩

theorem loop_ring (fuel : Nat) (d : FracDAG) (hc : DAG.Coh d) (hs : Singles d) (hf : d.mFrom.length < fuel)
    {L : Int → Prop} (hL : RingR (altRel PronunFrac.alts d) L) : mergeSinglesLoop fuel d = .ub := by
  induction fuel generalizing d L with
  | zero => omega
  | succ fuel ih =>
    rw [mergeSinglesLoop]
    cases hfind : d.mFrom.find? (isPass d) with
    | none =>
      exfalso
      obtain ⟨⟨v, hv⟩, h⟩ := id hL
      obtain ⟨⟨x, -, s, h1⟩, u, -, s', h2⟩ := h v hv
      obtain ⟨e, k1, rfl, -⟩ := (singles_oneEach hc hs).altRel_iff.mp ((h1 x s).mpr ⟨rfl, SylString.eq_refl s⟩)
      exact List.find?_eq_none.mp hfind e k1 ((pass_iff hc hs e).mpr ⟨⟨x, s, h1⟩, u, s', h2⟩)
    | some it =>
      have hit := List.mem_of_find?_eq_some hfind
      have hp := List.find?_some hfind
      by_cases hself : it.target = it.key
      · simp only [self_ub hc hit hp hself, Res.ub_bind]
      · obtain ⟨d', u, a, b, h1, h2, h3, h4, S⟩ := step_of hc hs it hit hp hself
        obtain ⟨L', hL'⟩ := S.ring hL
        simp only [h1, Res.ok_bind]
        exact ih d' h2 h3 (by omega) hL'

theorem loop_endless (fuel : Nat) (d : FracDAG) (hc : DAG.Coh d) (hs : Singles d) (hf : d.mFrom.length < fuel)
    (h : mergeSinglesLoop fuel d = .ub) : ∃ L, EndlessR (altRel PronunFrac.alts d) L := by
  induction fuel generalizing d with
  | zero => omega
  | succ fuel ih =>
    rw [mergeSinglesLoop] at h
    cases hfind : d.mFrom.find? (isPass d) with
    | none => rw [hfind] at h; cases h
    | some it =>
      have hit := List.mem_of_find?_eq_some hfind
      have hp := List.find?_some hfind
      by_cases hself : it.target = it.key
      · exact ⟨_, RingR.endless (self_ring hc hs hit hp hself)⟩
      · obtain ⟨d', u, a, b, h1, h2, h3, h4, S⟩ := step_of hc hs it hit hp hself
        rw [hfind] at h
        simp only [h1, Res.ok_bind] at h
        obtain ⟨L', hL'⟩ := ih d' h2 h3 (by omega) h
        exact S.endless hL'

theorem loop_exact (fuel : Nat) (d : FracDAG) (hc : DAG.Coh d) (hs : Singles d) (hf : d.mFrom.length < fuel)
    (hu : UnequivocalR (altRel PronunFrac.alts d))
    (h : mergeSinglesLoop fuel d = .ub) : ∃ L, RingR (altRel PronunFrac.alts d) L := by
  induction fuel generalizing d with
  | zero => omega
  | succ fuel ih =>
    rw [mergeSinglesLoop] at h
    cases hfind : d.mFrom.find? (isPass d) with
    | none => rw [hfind] at h; cases h
    | some it =>
      have hit := List.mem_of_find?_eq_some hfind
      have hp := List.find?_some hfind
      by_cases hself : it.target = it.key
      · exact ⟨_, self_ring hc hs hit hp hself⟩
      · obtain ⟨d', u, a, b, h1, h2, h3, h4, S⟩ := step_of hc hs it hit hp hself
        rw [hfind] at h
        simp only [h1, Res.ok_bind] at h
        obtain ⟨L', hL'⟩ := ih d' h2 h3 (by omega) (S.uneq hu) h
        exact S.ring_back hu hL'

end FracDAG

end Thpronun
