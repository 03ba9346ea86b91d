import Verif.Lemmas.ParserPath

/-! # Consequences of the parser's correctness: helper lemmas -/

namespace Thpronun
open Res Spec DAG

theorem whileLoop_congr {σ α : Type} {f g : σ → Res (σ ⊕ α)} {I : σ → Prop} (he : ∀ s, I s → f s = g s)
    (hI : ∀ s s', I s → f s = .ok (.inl s') → I s') {s : σ} (h : I s) : whileLoop f s = whileLoop g s := by
  have key : ∀ n s, I s → iterLoop f n s = iterLoop g n s := by
    intro n
    induction n with
    | zero => exact fun _ _ => rfl
    | succ n ih =>
      intro s hs
      unfold iterLoop
      rw [← he s hs]
      cases hf : f s with
      | ok r =>
        cases r with
        | inl s' => exact ih s' (hI s s' hs hf)
        | inr a => rfl
      | throw e => rfl
      | ub => rfl
      | diverge => rfl
  by_cases hd : whileLoop f s = .diverge
  · by_cases hd' : whileLoop g s = .diverge
    · rw [hd, hd']
    · obtain ⟨n, h1, h2⟩ := iterLoop_of_whileLoop hd'
      rw [← key n s h] at h1 h2
      rw [← h1, whileLoop_eq h2]
  · obtain ⟨n, h1, h2⟩ := iterLoop_of_whileLoop hd
    rw [← h1]
    rw [key n s h] at h2 ⊢
    rw [whileLoop_eq h2]

section
variable {ct : CType} {w : U16Str} {brk : List Int} {look : List Nat → Option Str}

theorem parseU16_congr (hct : ct.Ok) {d d' : Option Dict} (h : ∀ s, SOK ct w brk s → s.pos < w.length →
    expand ct w d brk s = expand ct w d' brk s) : parseU16 ct w d brk = parseU16 ct w d' brk := by
  unfold parseU16
  cases hp : parseInit ct w brk with
  | ok pool =>
    rw [ok_bind, ok_bind]
    refine whileLoop_congr (I := fun st => ∀ s ∈ st.1, SOK ct w brk s) ?_ ?_ (parseInit_sok hct hp)
    · rintro ⟨pool, acc⟩ hI
      cases pool with
      | nil => rfl
      | cons s pool =>
        rw [parseStep_cons hct, parseStep_cons hct]
        by_cases hl : s.pos ≥ w.length
        · rw [if_pos hl, if_pos hl]
        · rw [if_neg hl, if_neg hl, h s (hI s (by simp)) (by omega)]
    · rintro ⟨pool, acc⟩ st hI hs
      cases pool with
      | nil => rw [parseStep] at hs; cases hs
      | cons s pool =>
        rw [parseStep_cons hct] at hs
        by_cases hl : s.pos ≥ w.length
        · rw [if_pos hl] at hs
          cases hs
          exact fun x hx => hI x (by simp [hx])
        · rw [if_neg hl, bind_eq_ok] at hs
          obtain ⟨ss, hss, hs⟩ := hs
          cases hs
          have ht := expand_term hct d (hI s (by simp)) (by omega)
          rw [hss] at ht
          exact pool_forall (fun s y hs hy _ _ => sok_merge hs hy) ss pool (fun x hx => hI x (by simp [hx]))
            fun x hx => (ht x hx).1
  | throw e => rfl
  | ub => rfl
  | diverge => rfl

theorem expand_congr {d d' : Option Dict} {s : PState}
    (h : s.pos < s.stop → exceptions ct w d s = exceptions ct w d' s) :
    expand ct w d brk s = expand ct w d' brk s := by
  unfold expand
  by_cases h1 : s.pos ≥ s.stop
  · rw [if_pos h1, if_pos h1]
  · rw [if_neg h1, if_neg h1]
    unfold tokenStates
    rw [h (by omega)]

/-- Without a trie no exception is found. -/
theorem exceptions_noTrie (d : Dict) (hd : d.mTrie = none) (s : PState) : exceptions ct w (some d) s = .ok [] := by
  unfold exceptions findExceptions
  simp only
  rw [exceptLoop]
  simp [Match.findNext, Match.new, hd]

theorem parse_noTrie (hct : ct.Ok) (d : Dict) (hd : d.mTrie = none) :
    parseU16 ct w (some d) brk = parseU16 ct w none brk :=
  parseU16_congr hct fun s _ _ => expand_congr fun _ => exceptions_noTrie d hd s

/-- The states of the accepted words, one after the other. -/
def wordStates (s : PState) : List (Nat × Str) → Res (List PState)
  | [] => .ok []
  | m :: l => do
    let strs ← SylString.makeSylStrings m.2
    let rest ← wordStates s l
    pure (⟨m.1, s.stop, exceptDag s strs, false⟩ :: rest)

/-- The loop over the dictionary words depends on the accepted words only, however it ends. -/
theorem exceptLoop_eq (s : PState) (hs : s.stop ≤ w.length) {m : Match} {l : List (Nat × Str)} (h : Reports m l) :
    ∀ {fuel : Nat}, l.length < fuel →
    exceptLoop ct w s fuel m = wordStates s (l.filter (accepted ct w s.stop)) := by
  induction h with
  | stop m h h' =>
    intro fuel hf
    obtain ⟨fuel, rfl⟩ : ∃ n, fuel = n + 1 := ⟨fuel - 1, by simp at hf; omega⟩
    rw [exceptLoop]
    cases hb : m.findNext with
    | mk m' b =>
    rw [hb] at h
    simp only at h
    subst h
    rfl
  | found m d l h hd r ih =>
    intro fuel hf
    obtain ⟨fuel, rfl⟩ : ∃ n, fuel = n + 1 := ⟨fuel - 1, by simp at hf; omega⟩
    cases hb : m.findNext with
    | mk m' b =>
    rw [hb] at h hd r ih
    simp only at h hd r ih
    subst h
    rw [exceptLoop_succ s fuel m m' hb]
    have ih := @ih fuel (by simpa using hf)
    by_cases h1 : m'.getCurPos > s.stop
    · rw [if_pos h1, List.filter_cons_of_neg (by simp [accepted]; omega)]
      exact ih
    · rw [if_neg h1]
      have hskip : skipTest ct w s m' = .ok (!accepted ct w s.stop (m'.getCurPos, d)) := by
        unfold skipTest
        by_cases hlt : m'.getCurPos < s.stop
        · rw [if_pos hlt, strAt_eq (List.getElem?_eq_getElem (by omega : m'.getCurPos < w.length))]
          simp only [ok_bind, pure_eq, Res.ok.injEq, accepted]
          rw [List.getElem?_eq_getElem (by omega : m'.getCurPos < w.length)]
          have h2 : m'.getCurPos ≤ s.stop := by omega
          have h3 : ¬ m'.getCurPos = s.stop := by omega
          simp [h2, h3]
        · rw [if_neg hlt]
          have h3 : m'.getCurPos = s.stop := by omega
          simp [accepted, h3]
      rw [hskip, ok_bind]
      cases ha : accepted ct w s.stop (m'.getCurPos, d) with
      | false =>
        rw [if_pos (by rfl), List.filter_cons_of_neg (by simp [ha])]
        exact ih
      | true =>
        rw [if_neg (by simp), List.filter_cons_of_pos ha, hd, ok_bind, wordStates, ih]

/-- What the dictionary contributes to a state. -/
theorem exceptions_eq {dict : Option Dict} (hd : Holds dict look) (s : PState) (hs : s.stop ≤ w.length)
    (hp : s.pos ≤ w.length) :
    exceptions ct w dict s = wordStates s (dictAt ct w look s.pos s.stop) := by
  cases dict with
  | none =>
    have : dictAt ct w look s.pos s.stop = [] := by
      have h0 : prefixMatches look w s.pos = [] := by
        unfold prefixMatches
        rw [List.filterMap_eq_nil_iff]
        intro n _
        rw [hd]; rfl
      rw [dictAt, h0]; rfl
    rw [this]
    rfl
  | some d =>
    refine exceptLoop_eq s hs (hd w s.pos hp) ?_
    have := prefixMatches_length (w := w) look s.pos
    omega

/-- Dictionaries with the same matches give the same result, bit for bit. -/
theorem parse_sameDict (hct : ct.Ok) {d d' : Option Dict} {look' : List Nat → Option Str} (hd : Holds d look)
    (hd' : Holds d' look')
    (h : ∀ p t, IsStop ct w brk p t → dictAt ct w look p t = dictAt ct w look' p t) :
    parseU16 ct w d brk = parseU16 ct w d' brk := by
  refine parseU16_congr hct fun s hs hp => expand_congr fun hlt => ?_
  have hst := hs.stop hlt
  have h1 := exceptions_eq (ct := ct) hd s hst.le hs.pos
  have h2 := exceptions_eq (ct := ct) hd' s hst.le hs.pos
  rw [h _ _ hst] at h1
  exact Eq.trans h1 h2.symm

/-! ## Edges of the result -/

theorem edge_reading (hct : ct.Ok) {dict} (hd : Holds dict look) {d : PronunDAG} (h : parseU16 ct w dict brk = .ok d)
    {e : Entry Syl} (he : e ∈ d.mFrom) :
    ∃ es e', Reading ct w look brk es ∧ e' ∈ es ∧ e'.key = e.key ∧ e'.target = e.target ∧
      ceq e'.val e.val = true := by
  obtain ⟨hok, hc⟩ := parseU16_correct hct hd h
  obtain ⟨es, hr, e', he', h1, h2, h3⟩ := (hc e.key e.target e.val).mp
    ⟨e, mem_outEdges.mpr ⟨he, rfl⟩, rfl, LawfulCppEq.refl _⟩
  exact ⟨es, e', hr, he', h1, h2, h3⟩

theorem reading_edge (hct : ct.Ok) {dict} (hd : Holds dict look) {d : PronunDAG} (h : parseU16 ct w dict brk = .ok d)
    {es} (hr : Reading ct w look brk es) {e : Entry Syl} (he : e ∈ es) : Edge d e.key e.target e.val := by
  obtain ⟨hok, hc⟩ := parseU16_correct hct hd h
  exact (hc _ _ _).mpr ⟨es, hr, e, he, rfl, rfl, LawfulCppEq.refl _⟩

theorem outEdges_ne {d : PronunDAG} {u v : Int} {x : Syl} (h : Edge d u v x) : d.outEdges u ≠ [] := by
  obtain ⟨e, he, -⟩ := h
  intro h0; rw [h0] at he; cases he

/-- What an edge of the result satisfies. -/
theorem edge_inv (hct : ct.Ok) (hg : GoodLook look) {dict} (hd : Holds dict look) {d : PronunDAG}
    (h : parseU16 ct w dict brk = .ok d) {e : Entry Syl} (he : e ∈ d.mFrom) :
    0 ≤ place e.key ∧ place e.key < place e.target ∧ place e.target ≤ 2 * w.length ∧
    (e.target = w.length ∨ d.outEdges e.target ≠ []) ∧
    (e.key = 0 ∨ ∃ e' ∈ d.mFrom, e'.target = e.key) ∧
    ∃ e', e'.key = e.key ∧ e'.target = e.target ∧ ceq e'.val e.val = true ∧
      (Fact ct w brk e' ∨ Stretched ct w brk e') := by
  obtain ⟨es, e', hr, he', h1, h2, h3⟩ := edge_reading hct hd h he
  have hi := reading_inv hct hg hr
  obtain ⟨c1, c2, c3⟩ := hi.chain.mem he'
  refine ⟨place_nonneg _, h1 ▸ h2 ▸ c2, ?_, ?_, ?_, e', h1, h2, h3, hi.fact e' he'⟩
  · rw [← h2]; exact c3.trans (place_nat _).le
  · rcases hi.chain.next he' with h' | ⟨x, hx, hk⟩
    · exact .inl (h2 ▸ h')
    · have hy := outEdges_ne (reading_edge hct hd h hr hx)
      exact .inr (by rw [← h2, ← hk]; exact hy)
  · rcases hi.chain.prev he' with h' | ⟨x, hx, hk⟩
    · exact .inl (h1 ▸ h')
    · obtain ⟨y, hy, hyt, -⟩ := reading_edge hct hd h hr hx
      exact .inr ⟨y, (mem_outEdges.mp hy).1, by rw [hyt, hk, h1]⟩

theorem valid_of_ceq {x y : Syl} (h : ceq x y = true) (hx : ValidSyl x) : ValidSyl y := by
  have hl : x.isLiteral = false := by simp [Syl.isLiteral, hx.literal]
  obtain ⟨h1, h2⟩ := (Syl.eq_iff x y).mp h
  obtain ⟨e1, e2, e3, e4, e5⟩ := h2 hl
  exact ⟨h1 ▸ hx.literal, e1 ▸ hx.iCons1, e2 ▸ hx.iCons2, e3 ▸ hx.vowel, e5 ▸ hx.tone⟩

/-! ## When the parser throws -/

theorem grammar_stuck (hct : ct.Ok) {p t x : Nat} (l : Bool) (hp : p + 1 = w.length) (hx : ct.isLdVowel x = true)
    (hne : x ≠ UTH.SARA_E) : grammar ct w p t l x = .throw .outOfRange := by
  unfold grammar
  have h1 : ¬ ct.isCons x = true := by
    intro h
    have := hct.cons _ h
    have := hct.ld _ hx
    omega
  rw [if_neg h1, if_neg hne, if_pos hx, parseOtherLV_throw p l (by omega)]

variable (ct w brk look) in
/-- The data of the words met by partial readings can be read. -/
def Met : Prop := ∀ c t, Deriv ct w look brk c → IsStop ct w brk c.pos t → ∀ m ∈ dictAt ct w look c.pos t,
  ∃ strs, SylString.makeSylStrings m.2 = .ok strs

theorem met_of_readable (hr : Readable look) : Met ct w brk look :=
  fun _ _ _ _ _ hm => hr _ _ (mem_dictAt hm).2.2.2.1

/-- A state whose expansion fails belongs to a stuck reading. -/
theorem expand_throw (hct : ct.Ok) {dict : Option Dict} (hd : Holds dict look) (hr : Met ct w brk look)
    (hb : ∀ b ∈ brk, b ≤ w.length) {s : PState} (hs : SOK ct w brk s) (hn : Snd ct w brk look s)
    (hp : s.pos < w.length) : (∃ ss, expand ct w dict brk s = .ok ss) ∨
      (expand ct w dict brk s = .throw .outOfRange ∧ ∃ c, c.pos = s.pos ∧ Stuck ct w look brk c) := by
  unfold expand
  by_cases h1 : s.pos ≥ s.stop
  · rw [if_pos h1]
    obtain ⟨s', h⟩ := refresh_ok (ct := ct) (s := s) hb
    rw [h]; exact .inl ⟨_, rfl⟩
  · rw [if_neg h1]
    have hst := hs.stop (by omega)
    unfold tokenStates
    have hex : ∃ ex, exceptions ct w dict s = .ok ex ∧ List.Forall₂ (DictState s) (dictAt ct w look s.pos s.stop) ex := by
      have hall : ∀ l : List (Nat × Str), (∀ m ∈ l, ∃ strs, SylString.makeSylStrings m.2 = .ok strs) →
          ∃ ex, List.Forall₂ (DictState s) l ex := by
        intro l
        induction l with
        | nil => exact fun _ => ⟨[], .nil⟩
        | cons m l ih =>
          intro hm
          obtain ⟨ex, hex⟩ := ih fun m' hm' => hm m' (by simp [hm'])
          obtain ⟨strs, hstrs⟩ := hm m (by simp)
          exact ⟨_, .cons ⟨strs, hstrs, rfl⟩ hex⟩
      obtain ⟨es, hes⟩ := hn.some
      obtain ⟨ex, hex⟩ := hall (dictAt ct w look s.pos s.stop) (hr _ _ hes hst)
      exact ⟨ex, (exceptions_ok hd s hst.le hs.pos ex).mpr hex, hex⟩
    obtain ⟨ex, hex, hF⟩ := hex
    rw [hex, ok_bind]
    by_cases hl : ex.length > 0
    · rw [if_pos hl]; exact .inl ⟨_, rfl⟩
    · rw [if_neg hl]
      have hd0 : dictAt ct w look s.pos s.stop = [] := by
        rw [← List.length_eq_zero_iff, hF.length_eq]; omega
      obtain ⟨r, hr, ha⟩ := (sat_iff _ _).mp (findAbbr_sat hct s hst.lt hst.le)
      rw [hr, ok_bind]
      cases r with
      | some s' => exact .inl ⟨_, rfl⟩
      | none =>
        simp only
        unfold charStates
        have hx := List.getElem?_eq_getElem hp
        rw [strAt_eq hx, ok_bind]
        by_cases hdot : w[s.pos] = ch!"."
        · rw [if_pos hdot]
          obtain ⟨d, h6, -⟩ := (sat_iff _ _).mp (stretchDot_sat (s.dag.inDegree s.pos + 1) s.dag hs.dag
            (Nat.lt_succ_self _))
          rw [h6]; exact .inl ⟨_, rfl⟩
        · rw [if_neg hdot]
          rcases grammar_total (w := w) (c := w[s.pos]) hct s.linked hst.lt hst.le with ⟨ems, hg⟩ | ⟨hg, h2, h3, h4⟩
          · rw [hg]; exact .inl ⟨_, rfl⟩
          · rw [hg]
            obtain ⟨es, hes⟩ := hn.some
            exact .inr ⟨rfl, ⟨s.pos, s.linked, es⟩, rfl, hes, h4, s.stop, _, hst, ⟨hd0, ha⟩, hx, h2, h3⟩

theorem parse_ok_or_stuck (hct : ct.Ok) {dict : Option Dict} (hd : Holds dict look) (hr : Met ct w brk look)
    (hb : ∀ b ∈ brk, b ≤ w.length) :
    (∃ d, parseU16 ct w dict brk = .ok d) ∨
      (parseU16 ct w dict brk = .throw .outOfRange ∧ ∃ c, Stuck ct w look brk c) := by
  have hterm := parseU16_term (w := w) (brk := brk) hct dict
  unfold parseU16 parseInit at hterm ⊢
  obtain ⟨s, hs⟩ := refresh_ok (ct := ct) (s := ⟨0, 0, DAG.empty, false⟩) hb
  have hpool : parseInit ct w brk = .ok (StatePool.add [] s) := by unfold parseInit; rw [hs]; rfl
  rw [hs, ok_bind] at hterm ⊢
  simp only [pure_eq, ok_bind] at hterm ⊢
  obtain ⟨n, hn, hn'⟩ := iterLoop_of_whileLoop hterm
  rw [← hn]
  have hinv := parseInit_inv (look := look) hct hpool
  clear hn hterm
  generalize (StatePool.add [] s, DAG.empty) = st at hinv hn'
  induction n generalizing st with
  | zero => exact absurd rfl hn'
  | succ n ih =>
    obtain ⟨pool, acc⟩ := st
    unfold iterLoop at hn' ⊢
    cases pool with
    | nil => rw [parseStep]; exact .inl ⟨_, rfl⟩
    | cons s pool =>
      rw [parseStep_cons hct] at hn' ⊢
      by_cases hp : s.pos ≥ w.length
      · rw [if_pos hp] at hn' ⊢
        exact ih _ (linv_final hct hinv hp) hn'
      · rw [if_neg hp] at hn' ⊢
        rcases expand_throw hct hd hr hb (hinv.sok s (by simp)) (hinv.snd s (by simp)) (by omega) with
          ⟨ss, hss⟩ | ⟨hss, c, -, hst⟩
        · rw [hss] at hn' ⊢
          exact ih _ (linv_expand hct hinv (by omega)
            (expand_expands hct hd (hinv.sok s (by simp)) (by omega) hss)) hn'
        · rw [hss]
          exact .inr ⟨rfl, c, hst⟩

/-- A partial reading that no turn of the loop gets beyond. -/
def Blocks (ct : CType) (w : U16Str) (brk : List Int) (look : List Nat → Option Str) (c : Config) : Prop :=
  c.pos < w.length ∧ ∀ s ss, Matches s c → Expands ct w brk look s ss → ∃ t, ss = [{ s with stop := t }]

theorem blocks_of_stuck (hct : ct.Ok) {c : Config} (hc : Stuck ct w look brk c) : Blocks ct w brk look c := by
  obtain ⟨-, hlen, t, x, hst, hpl, hx, hld, hne⟩ := hc
  refine ⟨by omega, fun y ss hm hex => ?_⟩
  have hpos := hm.pos
  cases hex with
  | gap hq _ _ => exact absurd hst.token (hpos ▸ hq.no _ le_rfl hq.lt)
  | @stop t' _ _ => exact ⟨_, rfl⟩
  | dict hst' hne' _ =>
    rw [← hpos] at hst' hne'
    rw [hst'.unique hst] at hne'
    exact absurd hpl.1 hne'
  | abbr hst' _ ha _ _ =>
    rw [← hpos] at hst' ha
    rw [hst'.unique hst] at ha
    exact absurd ⟨_, ha⟩ hpl.2
  | dot _ _ hdot _ _ =>
    rw [← hpos, hx] at hdot
    cases hdot
    have := hct.ld _ hld
    omega
  | syl _ _ hx' _ hg =>
    rw [← hpos, hx] at hx'
    cases hx'
    rw [grammar_stuck hct _ (by omega) hld hne] at hg
    cases hg

theorem blocks_of_unread {c : Config} {t : Nat} (hst : IsStop ct w brk c.pos t) {m} (hm : m ∈ dictAt ct w look c.pos t)
    (hbad : ∀ strs, SylString.makeSylStrings m.2 ≠ .ok strs) : Blocks ct w brk look c := by
  refine ⟨by have := hst.lt; have := hst.le; omega, fun y ss hy hex => ?_⟩
  have hpos := hy.pos
  have hne : dictAt ct w look c.pos t ≠ [] := fun h => by rw [h] at hm; cases hm
  rw [hpos] at hst hne hm
  cases hex with
  | gap hq _ _ => exact absurd hst.token (hq.no _ le_rfl hq.lt)
  | @stop t' _ _ => exact ⟨_, rfl⟩
  | dict hst' _ hF =>
    rw [hst'.unique hst] at hF
    obtain ⟨s', -, strs, h, -⟩ := forall₂_mem_left hF hm
    exact absurd h (hbad strs)
  | abbr hst' h0 _ _ _ => rw [hst'.unique hst] at h0; exact absurd h0 hne
  | dot hst' h0 _ _ _ => have := h0.1; rw [hst'.unique hst] at this; exact absurd this hne
  | syl hst' h0 _ _ _ => have := h0.1; rw [hst'.unique hst] at this; exact absurd this hne

variable (ct w brk look) in
/-- A partial reading is still to come. -/
def Pending (c : Config) (pool : StatePool) : Prop :=
  ∃ s ∈ pool, ∃ c0, Matches s c0 ∧ Relation.ReflTransGen (Step ct w look brk) c0 c

theorem pending_step (hct : ct.Ok) {c : Config} {s : PState} {pool ss} (hc : Matches s c → ∃ t, ss = [{ s with stop := t }])
    (h : Pending ct w brk look c (s :: pool)) (hex : Expands ct w brk look s ss) :
    Pending ct w brk look c (ss.foldl StatePool.add pool) := by
  obtain ⟨y, hy, c0, hm, hr⟩ := h
  rcases List.mem_cons.mp hy with rfl | hy
  · rcases hr.cases_head with rfl | ⟨c1, hs1, hr1⟩
    · obtain ⟨t', rfl⟩ := hc hm
      obtain ⟨z, hz, hcov⟩ := poolFold_covers_new [{ y with stop := t' }] pool (List.mem_singleton_self _)
      exact ⟨z, hz, c0, Matches.covers ⟨hm.pos, hm.linked, hm.edges⟩ hcov, hr⟩
    · obtain ⟨s', hs', hm'⟩ := expands_complete hct hex hm hs1
      obtain ⟨z, hz, hcov⟩ := poolFold_covers_new ss pool hs'
      rcases hm' with hm' | hm'
      · exact ⟨z, hz, c1, hm'.covers hcov, hr1⟩
      · exact ⟨z, hz, c0, hm'.covers hcov, hr⟩
  · obtain ⟨z, hz, hcov⟩ := poolFold_covers_old ss pool hy
    exact ⟨z, hz, c0, hm.covers hcov, hr⟩

theorem pending_final (hct : ct.Ok) {c : Config} (hc : c.pos < w.length) {s : PState} {pool}
    (h : Pending ct w brk look c (s :: pool)) (hp : w.length ≤ s.pos) : Pending ct w brk look c pool := by
  obtain ⟨y, hy, c0, hm, hr⟩ := h
  rcases List.mem_cons.mp hy with rfl | hy
  · exfalso
    have h0 := hm.pos
    have : ∀ {a b : Config}, Relation.ReflTransGen (Step ct w look brk) a b → a.pos ≤ b.pos := by
      intro a b hab
      induction hab with
      | refl => exact le_rfl
      | tail _ hs ih => have := hs.lt hct; omega
    have := this hr
    omega
  · exact ⟨y, hy, c0, hm, hr⟩

theorem pending_start (hct : ct.Ok) {c : Config} (hlt : c.pos < w.length) (hc : ∀ {s : PState} {ss}, s.stop ≤ s.pos →
    Matches s c → Expands ct w brk look s ss → ∃ t, ss = [{ s with stop := t }]) (hder : Deriv ct w look brk c) {pool}
    (hpool : parseInit ct w brk = .ok pool) : Pending ct w brk look c pool := by
  have hw : 0 < w.length := by omega
  unfold parseInit at hpool
  rw [bind_eq_ok] at hpool
  obtain ⟨s, hr, hp⟩ := hpool
  cases hp
  have hx : Expands ct w brk look ⟨0, 0, DAG.empty, false⟩ [s] := by
    rcases (satP_iff _ _).mp (refresh_sat (s := ⟨0, 0, DAG.empty, false⟩) hw) _ hr with
      ⟨q, t, hq, ht, ht', rfl⟩ | ⟨t, ht, rfl⟩
    · exact .gap hq ht ht'
    · exact .stop (Nat.le_refl 0) ht
  refine pending_step hct (fun hm => hc (Nat.le_refl 0) hm hx) (pool := []) ⟨_, List.mem_singleton_self _, ⟨0, false, []⟩, ⟨rfl, rfl, ?_⟩, hder⟩ hx
  rintro u v y ⟨e, he, -⟩; cases he

/-- A blocked reading makes the parser fail. -/
theorem not_ok_of_blocks (hct : ct.Ok) {dict : Option Dict} (hd : Holds dict look) {c : Config}
    (hder : Deriv ct w look brk c) (hc : Blocks ct w brk look c) {d} : parseU16 ct w dict brk ≠ .ok d := by
  intro h
  unfold parseU16 at h
  rw [bind_eq_ok] at h
  obtain ⟨pool, hpool, h⟩ := h
  have key : (whileLoop (parseStep ct w dict brk) (pool, DAG.empty)).SatP fun _ => False := by
    refine whileLoop_inv (I := fun st => LInv ct w brk look st ∧ Pending ct w brk look c st.1) ?_
      ⟨parseInit_inv hct hpool, pending_start hct hc.1 (fun _ => hc.2 _ _) hder hpool⟩
    rintro ⟨pool, acc⟩ ⟨hI, hP⟩
    rw [satP_iff]
    intro r hr
    cases pool with
    | nil => obtain ⟨s, hs, -⟩ := hP; cases hs
    | cons s pool =>
      rw [parseStep_cons hct] at hr
      by_cases hp : s.pos ≥ w.length
      · rw [if_pos hp] at hr
        cases hr
        exact ⟨linv_final hct hI hp, pending_final hct hc.1 hP hp⟩
      · rw [if_neg hp, bind_eq_ok] at hr
        obtain ⟨ss, hss, hr⟩ := hr
        cases hr
        have hx := expand_expands hct hd (hI.sok s (by simp)) (by omega) hss
        exact ⟨linv_expand hct hI (by omega) hx, pending_step hct (fun hm => hc.2 _ _ hm hx) hP hx⟩
  exact (satP_iff _ _).mp key d h

theorem not_ok_of_stuck (hct : ct.Ok) {dict : Option Dict} (hd : Holds dict look) {c : Config}
    (hc : Stuck ct w look brk c) {d} : parseU16 ct w dict brk ≠ .ok d :=
  not_ok_of_blocks hct hd hc.1 (blocks_of_stuck hct hc)

end
end Thpronun
