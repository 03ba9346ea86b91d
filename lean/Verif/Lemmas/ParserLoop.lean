import Verif.Lemmas.ParserInv
import Mathlib.Data.Multiset.DershowitzManna

/-! # The parser loop: correctness and termination, helper lemmas -/

namespace Thpronun
open Res Spec DAG

section
variable {ct : CType} {w : U16Str} {brk : List Int} {look : List Nat → Option Str}

theorem Spec.Step.lt (hct : ct.Ok) {c c' : Config} (h : Step ct w look brk c c') :
    c.pos < c'.pos ∧ c'.pos ≤ w.length := by
  cases h with
  | gap hg => exact ⟨hg.lt, hg.le⟩
  | dict hst hm hmk hs => have := mem_dictAt hm; exact ⟨this.1, this.2.2.1⟩
  | abbr hst hd ha => exact ⟨ha.lt, ha.le.trans hst.le⟩
  | syl hst hpl hc hg he => have := grammar_ok hct hst.lt hst.le hg _ he; exact ⟨this.1.lo, this.2⟩
  | dot hst => exact ⟨Nat.lt_succ_self _, by have := hst.lt; have := hst.le; simp only; omega⟩

/-! ## Correctness -/

variable (ct w brk look) in
/-- The loop invariant. -/
structure LInv (st : StatePool × PronunDAG) : Prop where
  sok : ∀ s ∈ st.1, SOK ct w brk s
  acc : DOK st.2
  snd : ∀ s ∈ st.1, Snd ct w brk look s
  sndAcc : ∀ u v y, Edge st.2 u v y → ∃ es, Reading ct w look brk es ∧ In es u v y
  compl : ∀ c, Deriv ct w look brk c → w.length ≤ c.pos →
    (∃ s ∈ st.1, ∃ c0, Matches s c0 ∧ Relation.ReflTransGen (Step ct w look brk) c0 c) ∨
    ∀ u v y, In c.edges u v y → Edge st.2 u v y

theorem snd_merge {s y : PState} (hs : Snd ct w brk look s) (hy : Snd ct w brk look y) (hp : y.pos = s.pos)
    (hl : y.linked = s.linked) : Snd ct w brk look { y with dag := y.dag.unionDAG s.dag } := by
  refine ⟨hy.some, fun u v z hz => ?_⟩
  rcases edge_unionDAG.mp hz with h | h
  · exact hy.edges u v z h
  · obtain ⟨es, h1, h2⟩ := hs.edges u v z h
    simp only [hp, hl]
    exact ⟨es, h1, h2⟩

theorem pool_forall {P : PState → Prop} (hmerge : ∀ s y, P s → P y → y.pos = s.pos → y.linked = s.linked →
    P { y with dag := y.dag.unionDAG s.dag }) (ss : List PState) : ∀ (pool : StatePool), (∀ s ∈ pool, P s) →
    (∀ s ∈ ss, P s) → ∀ s ∈ ss.foldl StatePool.add pool, P s := by
  induction ss with
  | nil => exact fun pool h _ => h
  | cons a l ih =>
    intro pool h h'
    refine ih _ (fun x hx => ?_) (fun s hs => h' s (by simp [hs]))
    rcases mem_poolAdd hx with hx | rfl | ⟨y, hy, hp, hl, rfl⟩
    · exact h x hx
    · exact h' _ (by simp)
    · exact hmerge a y (h' a (by simp)) (h y hy) hp hl

theorem sok_merge {s y : PState} (hs : SOK ct w brk s) (hy : SOK ct w brk y) :
    SOK ct w brk { y with dag := y.dag.unionDAG s.dag } :=
  ⟨hy.dag.unionDAG hs.dag, hy.pos, hy.stop⟩

theorem linv_expand (hct : ct.Ok) {s : PState} {pool acc ss} (h : LInv ct w brk look (s :: pool, acc))
    (hp : s.pos < w.length) (hx : Expands ct w brk look s ss) :
    LInv ct w brk look (ss.foldl StatePool.add pool, acc) := by
  refine ⟨?_, h.acc, ?_, h.sndAcc, ?_⟩
  · exact pool_forall (fun s y hs hy _ _ => sok_merge hs hy) ss pool (fun x hx => h.sok x (by simp [hx]))
      (expands_sok hct (h.sok s (by simp)) hx)
  · exact pool_forall (fun s y hs hy hp hl => snd_merge hs hy hp hl) ss pool (fun x hx => h.snd x (by simp [hx]))
      (expands_snd (h.snd s (by simp)) hx)
  · intro c hc hl
    rcases h.compl c hc hl with ⟨x, hxm, c0, hm, hr⟩ | h'
    · left
      rcases List.mem_cons.mp hxm with rfl | hxm
      · rcases hr.cases_head with rfl | ⟨c1, hs1, hr1⟩
        · have := hm.pos; omega
        · obtain ⟨s', hs', hm'⟩ := expands_complete hct hx hm hs1
          obtain ⟨y, hy, hcov⟩ := poolFold_covers_new ss pool hs'
          rcases hm' with hm' | hm'
          · exact ⟨y, hy, c1, hm'.covers hcov, hr1⟩
          · exact ⟨y, hy, c0, hm'.covers hcov, hr⟩
      · obtain ⟨y, hy, hcov⟩ := poolFold_covers_old ss pool hxm
        exact ⟨y, hy, c0, hm.covers hcov, hr⟩
    · exact .inr h'

theorem linv_final (hct : ct.Ok) {s : PState} {pool acc} (h : LInv ct w brk look (s :: pool, acc))
    (hp : w.length ≤ s.pos) : LInv ct w brk look (pool, acc.unionDAG s.dag) := by
  refine ⟨fun x hx => h.sok x (by simp [hx]), h.acc.unionDAG (h.sok s (by simp)).dag,
    fun x hx => h.snd x (by simp [hx]), fun u v y hy => ?_, fun c hc hl => ?_⟩
  · rcases edge_unionDAG.mp hy with hy | hy
    · exact h.sndAcc u v y hy
    · obtain ⟨es, h1, h2⟩ := (h.snd s (by simp)).edges u v y hy
      exact ⟨es, ⟨_, h1, hp, rfl⟩, h2⟩
  · rcases h.compl c hc hl with ⟨x, hxm, c0, hm, hr⟩ | h'
    · rcases List.mem_cons.mp hxm with rfl | hxm
      · right
        rcases hr.cases_head with rfl | ⟨c1, hs1, hr1⟩
        · exact fun u v y hy => edge_unionDAG.mpr (.inr (hm.edges u v y hy))
        · have := hs1.lt hct
          have := hm.pos
          omega
      · exact .inl ⟨x, hxm, c0, hm, hr⟩
    · exact .inr fun u v y hy => edge_unionDAG.mpr (.inl (h' u v y hy))

theorem start_sok : SOK ct w brk ⟨0, 0, DAG.empty, false⟩ := ⟨DOK.empty, Nat.zero_le _, fun h => absurd h (by simp)⟩

theorem edge_empty {u v : Int} {y : Syl} : ¬ Edge (DAG.empty : PronunDAG) u v y := by
  rintro ⟨e, he, -⟩; cases he

theorem linv_start : LInv ct w brk look ([⟨0, 0, DAG.empty, false⟩], DAG.empty) := by
  refine ⟨?_, DOK.empty, ?_, fun u v y hy => absurd hy edge_empty, fun c hc _ => .inl ⟨_, List.mem_singleton_self _,
    ⟨0, false, []⟩, ⟨rfl, rfl, ?_⟩, hc⟩⟩
  · intro s hs
    rw [List.mem_singleton] at hs
    subst hs
    exact start_sok
  · intro s hs
    rw [List.mem_singleton] at hs
    subst hs
    exact ⟨⟨[], .refl⟩, fun u v y hy => absurd hy edge_empty⟩
  · rintro u v y ⟨e, he, -⟩; cases he

theorem parseInit_inv (hct : ct.Ok) {pool} (h : parseInit ct w brk = .ok pool) :
    LInv ct w brk look (pool, DAG.empty) := by
  unfold parseInit at h
  rw [bind_eq_ok] at h
  obtain ⟨s, hr, h⟩ := h
  cases h
  rcases Nat.eq_zero_or_pos w.length with h0 | h0
  · have h1 : skipNonThai ct w 0 = 0 := by
      have := skipNonThai_le (ct := ct) (w := w) (p := 0) (by omega)
      omega
    unfold refresh at hr
    simp only [h1, gt_iff_lt, lt_self_iff_false, if_false, h0] at hr
    cases hr
    exact linv_start
  · have hx : Expands ct w brk look ⟨0, 0, DAG.empty, false⟩ [s] := by
      rcases (satP_iff _ _).mp (refresh_sat (s := ⟨0, 0, DAG.empty, false⟩) h0) _ hr with
        ⟨q, t, hq, ht, ht', rfl⟩ | ⟨t, ht, rfl⟩
      · exact .gap hq ht ht'
      · exact .stop (Nat.le_refl 0) ht
    exact linv_expand hct (linv_start (look := look)) h0 hx

/-- The result of the parser: exactly the edges of the readings. -/
theorem parseU16_correct (hct : ct.Ok) {dict : Option Dict} (hd : Holds dict look) {d : PronunDAG}
    (h : parseU16 ct w dict brk = .ok d) :
    DOK d ∧ ∀ u v y, Edge d u v y ↔ ∃ es, Reading ct w look brk es ∧ In es u v y := by
  unfold parseU16 at h
  rw [bind_eq_ok] at h
  obtain ⟨pool, hpool, h⟩ := h
  have hinv := parseInit_inv (look := look) hct hpool
  have key : (whileLoop (parseStep ct w dict brk) (pool, DAG.empty)).SatP fun d =>
      DOK d ∧ ∀ u v y, Edge d u v y ↔ ∃ es, Reading ct w look brk es ∧ In es u v y := by
    refine whileLoop_inv (I := LInv ct w brk look) ?_ hinv
    rintro ⟨pool, acc⟩ hI
    rw [satP_iff]
    intro r hr
    cases pool with
    | nil =>
      rw [parseStep] at hr
      cases hr
      refine ⟨hI.acc, fun u v y => ⟨hI.sndAcc u v y, ?_⟩⟩
      rintro ⟨es, ⟨c, hc, hl, rfl⟩, hin⟩
      rcases hI.compl c hc hl with ⟨s, hs, -⟩ | h'
      · cases hs
      · exact h' u v y hin
    | cons s pool =>
      rw [parseStep_cons hct] at hr
      by_cases hp : s.pos ≥ w.length
      · rw [if_pos hp] at hr
        cases hr
        exact linv_final hct hI hp
      · rw [if_neg hp, bind_eq_ok] at hr
        obtain ⟨ss, hss, hr⟩ := hr
        cases hr
        exact linv_expand hct hI (by omega) (expand_expands hct hd (hI.sok s (by simp)) (by omega) hss)
  exact (satP_iff _ _).mp key d h

/-! ## Termination -/

/-- The measure of a state. -/
def meas (w : U16Str) (s : PState) : Nat := 2 * (w.length - s.pos) + if s.pos < s.stop then 0 else 1

theorem refresh_term (s : PState) : (refresh ct w brk s).Term fun _ => True := by
  unfold refresh
  simp only
  refine term_ite (fun _ => ?_) (fun _ => trivial)
  refine Term.bind (P := fun _ => True) ?_ fun _ _ => trivial
  rw [nextWordStop_def]
  rcases stopLoop_cases (ct := ct) (nb := nextBreak w brk _) (w.drop _) _ with ⟨t, h⟩ | h <;> rw [h] <;> trivial

theorem grammar_total (hct : ct.Ok) {p t c : Nat} (l : Bool) (hp : p < t) (ht : t ≤ w.length) :
    (∃ ems, grammar ct w p t l c = .ok ems) ∨
      (grammar ct w p t l c = .throw .outOfRange ∧ ct.isLdVowel c = true ∧ c ≠ UTH.SARA_E ∧ p + 1 = w.length) := by
  have fin : ∀ {r : Res (List Emit)} {P}, r.Sat P → ∃ ems, r = .ok ems := by
    intro r P h
    obtain ⟨a, ha, -⟩ := (sat_iff _ _).mp h
    exact ⟨a, ha⟩
  unfold grammar
  by_cases h1 : ct.isCons c = true
  · rw [if_pos h1]
    exact .inl (fin (parseThCons_sat hct ht p l hp))
  · rw [if_neg h1]
    by_cases h2 : c = UTH.SARA_E
    · rw [if_pos h2]
      exact .inl (fin (parseSaraE_sat hct ht p l))
    · rw [if_neg h2]
      by_cases h3 : ct.isLdVowel c = true
      · rw [if_pos h3]
        by_cases h4 : p + 1 < w.length
        · exact .inl (fin (parseOtherLV_sat hct ht p l h4))
        · exact .inr ⟨parseOtherLV_throw p l (by omega), h3, h2, by omega⟩
      · rw [if_neg h3]
        by_cases h4 : c = UTH.RU ∨ c = UTH.LU
        · rw [if_pos h4]
          exact .inl (fin (parseRuLu_sat (b := p) hct ht p hp le_rfl rfl))
        · rw [if_neg h4]
          exact .inl ⟨_, rfl⟩

/-- Whatever the dictionary, the expansion of a state ends, and the new states are smaller. -/
theorem expand_term (hct : ct.Ok) (dict : Option Dict) {s : PState} (hs : SOK ct w brk s) (hp : s.pos < w.length) :
    (expand ct w dict brk s).Term fun ss => ∀ s' ∈ ss, SOK ct w brk s' ∧ meas w s' < meas w s := by
  have key : ∀ {s' : PState}, s.pos < s.stop → s.pos < s'.pos → s'.pos ≤ w.length → meas w s' < meas w s := by
    intro s' h0 h1 h2
    unfold meas
    rw [if_pos h0]
    split <;> omega
  unfold expand
  refine term_ite (fun h1 => ?_) (fun h1 => ?_)
  · have hr : (refresh ct w brk s).Term _ := term_iff.mpr ⟨(term_iff.mp (refresh_term s)).1, refresh_sat hp⟩
    refine hr.bind fun s' h => ?_
    have hx : Expands ct w brk (fun _ => none) s [s'] := by
      rcases h with ⟨q, t, hq, ht, ht', rfl⟩ | ⟨t, ht, rfl⟩
      · exact .gap hq ht ht'
      · exact .stop h1 ht
    intro x hx'
    refine ⟨expands_sok hct hs hx x hx', ?_⟩
    rw [List.mem_singleton] at hx'
    subst hx'
    unfold meas
    rw [if_neg (by omega : ¬ s.pos < s.stop)]
    rcases h with ⟨q, t, hq, ht, ht', rfl⟩ | ⟨t, ht, rfl⟩
    · have := hq.lt
      have := hq.le
      simp only
      split <;> omega
    · have := ht.lt
      simp only [ht.lt, if_true]
      omega
  · have hlt : s.pos < s.stop := by omega
    have hst := hs.stop hlt
    unfold tokenStates
    have hex : (exceptions ct w dict s).Term fun ex => ∀ s' ∈ ex, SOK ct w brk s' ∧ meas w s' < meas w s := by
      unfold exceptions
      cases dict with
      | none => exact fun s' h => by cases h
      | some d =>
        refine (exceptLoop_term s (w.length + 1) (Match.new w s.pos d) (by simp [Match.new, hs.pos])
          (by simp [Match.new]; omega)).mono fun ex h s' hs' => ?_
        obtain ⟨h2, h3, h4, strs, h5⟩ := h s' hs'
        have h3 : s.pos < s'.pos := h3
        refine ⟨⟨?_, by have := hst.le; omega, fun h => ?_⟩, key hlt h3 (by have := hst.le; omega)⟩
        · rw [h5, exceptDag_eq]
          refine hs.dag.addEdges fun e he => ?_
          obtain ⟨x, -, hx⟩ := List.mem_flatMap.mp he
          exact pathEdges_ends _ _ e hx
        · rw [h2] at h ⊢
          exact hst.mid h3.le h
    refine hex.bind fun ex hex => term_ite (fun _ => hex) (fun _ => ?_)
    refine (findAbbr_sat hct s hst.lt hst.le).term.bind fun r hr => ?_
    match r, hr with
    | some s', ⟨new, ha, hn, hs'⟩ =>
      have hx : SOK ct w brk s' := by
        rw [hs']
        exact ⟨hs.dag.addEdges (abbrEdges_ends hn), ha.le.trans hst.le, fun h => hst.mid ha.lt.le h⟩
      intro x hx'
      rw [List.mem_singleton] at hx'
      subst hx'
      exact ⟨hx, key hlt ha.lt hx.pos⟩
    | none, _ =>
      simp only
      unfold charStates
      rw [strAt_eq (List.getElem?_eq_getElem hp), ok_bind]
      refine term_ite (fun _ => ?_) (fun _ => ?_)
      · refine (stretchDot_sat (s.dag.inDegree s.pos + 1) s.dag hs.dag (Nat.lt_succ_self _)).term.bind fun d hd => ?_
        intro x hx'
        rw [List.mem_singleton] at hx'
        subst hx'
        have hle := hst.le
        exact ⟨⟨hd.1, by simp only; omega, fun h => hst.mid (by simp) h⟩, key hlt (by simp) (by simp only; omega)⟩
      · rcases grammar_total (w := w) (c := w[s.pos]) hct s.linked hst.lt hst.le with ⟨ems, hg⟩ | ⟨hg, -⟩
        · rw [hg]
          intro x hx
          obtain ⟨e, he, rfl⟩ := List.mem_map.mp hx
          obtain ⟨h1, h2⟩ := grammar_ok hct hst.lt hst.le hg e he
          exact ⟨⟨hs.dag.addEdges (sylEdges_ends _ _), h2, fun h => hst.mid h1.lo.le h⟩, key hlt h1.lo h2⟩
        · rw [hg]; trivial

/-- The measures of a pool. -/
def poolMeas (w : U16Str) (pool : StatePool) : Multiset Nat := (pool.map (meas w) : Multiset Nat)

theorem poolMeas_add (pool : StatePool) (s : PState) :
    poolMeas w (pool.add s) = poolMeas w pool ∨ poolMeas w (pool.add s) = poolMeas w pool + {meas w s} := by
  induction pool with
  | nil => exact .inr rfl
  | cons a l ih =>
    rw [StatePool.add]
    split
    · exact .inl rfl
    · split
      · right
        simp only [poolMeas, List.map_cons, ← Multiset.cons_coe, ← Multiset.singleton_add]
        rw [add_comm]
      · simp only [poolMeas, List.map_cons, ← Multiset.cons_coe, ← Multiset.singleton_add] at ih ⊢
        rcases ih with ih | ih
        · left; rw [ih]
        · right; rw [ih, add_assoc]

theorem poolMeas_fold {m : Nat} (ss : List PState) : ∀ (pool : StatePool), (∀ s ∈ ss, meas w s < m) →
    ∃ Y : Multiset Nat, poolMeas w (ss.foldl StatePool.add pool) = poolMeas w pool + Y ∧ ∀ y ∈ Y, y < m := by
  induction ss with
  | nil => exact fun pool _ => ⟨0, by simp, by simp⟩
  | cons a l ih =>
    intro pool h
    obtain ⟨Y, hY, hm⟩ := ih (pool.add a) fun s hs => h s (by simp [hs])
    rcases poolMeas_add (w := w) pool a with ha | ha
    · exact ⟨Y, by rw [List.foldl_cons, hY, ha], hm⟩
    · refine ⟨{meas w a} + Y, by rw [List.foldl_cons, hY, ha, add_assoc], fun y hy => ?_⟩
      rcases Multiset.mem_add.mp hy with hy | hy
      · rw [Multiset.mem_singleton] at hy
        subst hy
        exact h a (by simp)
      · exact hm y hy

/-- The loop ends for every dictionary; what every turn satisfies, the result does. -/
theorem parseLoop_term (hct : ct.Ok) (dict : Option Dict) {O : Res PronunDAG → Prop} (hok : ∀ d, O (.ok d))
    (herr : ∀ s, SOK ct w brk s → s.pos < w.length →
      match expand ct w dict brk s with
      | .ok _ => True
      | .throw e => O (.throw e)
      | .ub => O .ub
      | .diverge => True) {pool : StatePool} (h : ∀ s ∈ pool, SOK ct w brk s) (acc : PronunDAG) :
    whileLoop (parseStep ct w dict brk) (pool, acc) ≠ .diverge ∧
      O (whileLoop (parseStep ct w dict brk) (pool, acc)) := by
  refine whileLoop_total (I := fun st => ∀ s ∈ st.1, SOK ct w brk s)
    (R := InvImage Multiset.IsDershowitzMannaLT fun st => poolMeas w st.1)
    (InvImage.wf _ Multiset.wellFounded_isDershowitzMannaLT) ?_ h
  rintro ⟨pool, acc⟩ hI
  cases pool with
  | nil => exact hok acc
  | cons s pool =>
    rw [parseStep_cons hct]
    by_cases hp : s.pos ≥ w.length
    · rw [if_pos hp]
      refine ⟨fun x hx => hI x (by simp [hx]), poolMeas w pool, 0, {meas w s}, by simp, by simp, ?_, by simp⟩
      show poolMeas w (s :: pool) = _
      simp only [poolMeas, List.map_cons, ← Multiset.cons_coe, ← Multiset.singleton_add]
      rw [add_comm]
    · rw [if_neg hp]
      have hs := hI s (by simp)
      have ht := expand_term hct dict hs (by omega)
      have he := herr s hs (by omega)
      cases hx : expand ct w dict brk s with
      | ok ss =>
        rw [hx] at ht
        have ht : ∀ s' ∈ ss, SOK ct w brk s' ∧ meas w s' < meas w s := ht
        refine ⟨pool_forall (fun s y hs hy _ _ => sok_merge hs hy) ss pool (fun x hx => hI x (by simp [hx]))
          fun x hx => (ht x hx).1, ?_⟩
        obtain ⟨Y, hY, hm⟩ := poolMeas_fold (m := meas w s) ss pool fun x hx => (ht x hx).2
        refine ⟨poolMeas w pool, Y, {meas w s}, by simp, hY, ?_, fun y hy => ⟨_, by simp, hm y hy⟩⟩
        show poolMeas w (s :: pool) = _
        simp only [poolMeas, List.map_cons, ← Multiset.cons_coe, ← Multiset.singleton_add]
        rw [add_comm]
      | throw e => rw [hx] at he; exact he
      | ub => rw [hx] at he; exact he
      | diverge => rw [hx] at ht; exact ht

theorem parseInit_sok (hct : ct.Ok) {pool} (h : parseInit ct w brk = .ok pool) : ∀ s ∈ pool, SOK ct w brk s :=
  (parseInit_inv (look := fun _ => none) hct h).sok

theorem parseU16_term (hct : ct.Ok) (dict : Option Dict) : parseU16 ct w dict brk ≠ .diverge := by
  unfold parseU16
  cases h : parseInit ct w brk with
  | ok pool =>
    rw [ok_bind]
    refine (parseLoop_term hct dict (O := fun _ => True) (fun _ => trivial) (fun s _ _ => ?_) (parseInit_sok hct h) _).1
    cases expand ct w dict brk s <;> trivial
  | throw e => simp
  | ub => simp
  | diverge =>
    unfold parseInit at h
    exfalso
    have := refresh_term (ct := ct) (w := w) (brk := brk) ⟨0, 0, DAG.empty, false⟩
    cases hr : refresh ct w brk ⟨0, 0, DAG.empty, false⟩ with
    | ok s => rw [hr] at h; cases h
    | throw e => rw [hr] at h; cases h
    | ub => rw [hr] at h; cases h
    | diverge => rw [hr] at this; exact this

/-! ## Normal return -/

theorem refresh_ok {s : PState} (hb : ∀ b ∈ brk, b ≤ w.length) : ∃ s', refresh ct w brk s = .ok s' := by
  unfold refresh
  simp only
  generalize (if skipNonThai ct w s.pos > s.pos then _ else s : PState) = s1
  by_cases hl : s1.pos < w.length
  · rw [if_pos hl]
    obtain ⟨t, ht⟩ := stopLoop_total (ct := ct) (nextBreak_le (p := s1.pos) hb) rfl hl.le
    rw [nextWordStop_def, ht]
    exact ⟨_, rfl⟩
  · rw [if_neg hl]; exact ⟨_, rfl⟩

theorem expand_ok (hct : ct.Ok) {dict : Option Dict} (hd : Holds dict look) (hr : Readable look)
    (hb : ∀ b ∈ brk, b ≤ w.length)
    (hl : ∀ c, w[w.length - 1]? = some c → ct.isLdVowel c = true → c = UTH.SARA_E)
    {s : PState} (hs : SOK ct w brk s) (hp : s.pos < w.length) : ∃ ss, expand ct w dict brk s = .ok ss := by
  unfold expand
  by_cases h1 : s.pos ≥ s.stop
  · rw [if_pos h1]
    obtain ⟨s', h⟩ := refresh_ok (ct := ct) (s := s) hb
    rw [h]; exact ⟨_, rfl⟩
  · rw [if_neg h1]
    have hst := hs.stop (by omega)
    unfold tokenStates
    have hex : ∃ ex, exceptions ct w dict s = .ok ex := by
      have hall : ∀ l : List (Nat × Str), (∀ m ∈ l, ∃ v, look v = some m.2) → ∃ ex, List.Forall₂ (DictState s) l ex := by
        intro l
        induction l with
        | nil => exact fun _ => ⟨[], .nil⟩
        | cons m l ih =>
          intro hm
          obtain ⟨ex, hex⟩ := ih fun m' hm' => hm m' (by simp [hm'])
          obtain ⟨v, hv⟩ := hm m (by simp)
          obtain ⟨strs, hstrs⟩ := hr v _ hv
          exact ⟨_, .cons ⟨strs, hstrs, rfl⟩ hex⟩
      obtain ⟨ex, hex⟩ := hall (dictAt ct w look s.pos s.stop) fun m hm => ⟨_, (mem_dictAt hm).2.2.2.1⟩
      exact ⟨ex, (exceptions_ok hd s hst.le hs.pos ex).mpr hex⟩
    obtain ⟨ex, hex⟩ := hex
    rw [hex, ok_bind]
    split
    · exact ⟨_, rfl⟩
    · obtain ⟨r, hr, -⟩ := (sat_iff _ _).mp (findAbbr_sat hct s hst.lt hst.le)
      rw [hr, ok_bind]
      cases r with
      | some s' => exact ⟨_, rfl⟩
      | none =>
        simp only
        unfold charStates
        rw [strAt_eq (List.getElem?_eq_getElem hp), ok_bind]
        split
        · obtain ⟨d, h6, -⟩ := (sat_iff _ _).mp (stretchDot_sat (s.dag.inDegree s.pos + 1) s.dag hs.dag
            (Nat.lt_succ_self _))
          rw [h6]; exact ⟨_, rfl⟩
        · rcases grammar_total (w := w) (c := w[s.pos]) hct s.linked hst.lt hst.le with ⟨ems, hg⟩ | ⟨hg, h2, h3, h4⟩
          · rw [hg]; exact ⟨_, rfl⟩
          · refine absurd (hl w[s.pos] ?_ h2) h3
            rw [← List.getElem?_eq_getElem hp]
            congr 1; omega

theorem parseU16_ok (hct : ct.Ok) {dict : Option Dict} (hd : Holds dict look) (hr : Readable look)
    (hb : ∀ b ∈ brk, b ≤ w.length)
    (hl : ∀ c, w[w.length - 1]? = some c → ct.isLdVowel c = true → c = UTH.SARA_E) :
    ∃ d, parseU16 ct w dict brk = .ok d := by
  unfold parseU16 parseInit
  obtain ⟨s, hs⟩ := refresh_ok (ct := ct) (s := ⟨0, 0, DAG.empty, false⟩) hb
  have hpool : parseInit ct w brk = .ok (StatePool.add [] s) := by unfold parseInit; rw [hs]; rfl
  rw [hs, ok_bind]
  simp only [pure_eq, ok_bind]
  refine (parseLoop_term hct dict (O := fun r => ∃ d, r = .ok d) (fun d => ⟨d, rfl⟩) (fun s hs hp => ?_)
    (parseInit_sok hct hpool) _).2
  obtain ⟨ss, h⟩ := expand_ok hct hd hr hb hl hs hp
  rw [h]
  trivial

end
end Thpronun
