import Verif.Lemmas.ParserFacts
import Verif.Lemmas.Dict
import Verif.Lemmas.Rules
import Verif.Props.States

/-! # Parsing with a trie whose data are missing -/

namespace Thpronun
open Res Spec DAG

section
variable {ct : CType} {w : U16Str} {brk : List Int}

/-- The same words with data that can be read. -/
def withData (t : Trie) : Dict := ⟨some (t.map fun e => (e.1, 0)), some [1, 0]⟩

/-- The words of a trie, with these data. -/
def lookWords (t : Trie) : List Nat → Option Str := fun v => (t.get v).map fun _ => [1]

theorem get_withData (t : Trie) (v : U16Str) : Trie.get (t.map fun e => (e.1, (0 : Int))) v = (t.get v).map fun _ => 0 := by
  unfold Trie.get
  induction t with
  | nil => rfl
  | cons e t ih =>
    obtain ⟨a, i⟩ := e
    simp only [List.map_cons, List.lookup_cons]
    cases v == a with
    | true => rfl
    | false => exact ih

theorem hasPrefix_withData (t : Trie) (v : U16Str) : Trie.hasPrefix (t.map fun e => (e.1, (0 : Int))) v = t.hasPrefix v := by
  unfold Trie.hasPrefix
  rw [List.any_map]
  rfl

theorem get_mem {t : Trie} {v : U16Str} {i : Int} (h : t.get v = some i) : (v, i) ∈ t := by
  unfold Trie.get at h
  induction t with
  | nil => cases h
  | cons e t ih =>
    obtain ⟨a, j⟩ := e
    rw [List.lookup_cons] at h
    cases hb : v == a with
    | true =>
      rw [hb] at h
      cases h
      rw [eq_of_beq hb]
      exact List.mem_cons_self ..
    | false =>
      rw [hb] at h
      exact List.mem_cons_of_mem _ (ih h)

theorem get_isSome {t : Trie} {v : U16Str} : (t.get v).isSome = true ↔ v ∈ t.map fun e => e.1 := by
  constructor
  · intro h
    obtain ⟨i, hi⟩ := Option.isSome_iff_exists.mp h
    exact List.mem_map.mpr ⟨_, get_mem hi, rfl⟩
  · intro h
    unfold Trie.get
    induction t with
    | nil => cases h
    | cons e t ih =>
      obtain ⟨a, j⟩ := e
      rw [List.lookup_cons]
      cases hb : v == a with
      | true => rfl
      | false =>
        rcases List.mem_cons.mp h with rfl | h
        · simp at hb
        · exact ih h

theorem findLoop_withData (t : Trie) (pos : Nat) (walked rest : U16Str) :
    Match.findLoop (t.map fun e => (e.1, (0 : Int))) pos walked rest = Match.findLoop t pos walked rest := by
  induction rest generalizing pos walked with
  | nil => rfl
  | cons c cs ih =>
    simp only [Match.findLoop, hasPrefix_withData, get_withData, Option.isSome_map, ih]

theorem holds_withData (t : Trie) : Holds (some (withData t)) (lookWords t) := by
  intro text pos hp
  have hl : DictLook (withData t) (lookWords t) := by
    refine ⟨_, rfl, fun v i h => ?_, fun v u h => ?_, fun v h => ?_, fun v s h => ?_⟩
    · rw [hasPrefix_withData]
      rw [get_withData] at h
      obtain ⟨j, hj, -⟩ := Option.map_eq_some_iff.mp h
      exact List.any_eq_true.mpr ⟨_, get_mem hj, by simp⟩
    · rw [hasPrefix_withData] at h ⊢
      obtain ⟨e, he, h⟩ := List.any_eq_true.mp h
      refine List.any_eq_true.mpr ⟨e, he, ?_⟩
      rw [List.isPrefixOf_iff_prefix] at h ⊢
      exact (List.prefix_append _ _).trans h
    · rw [get_withData]
      unfold lookWords at h
      rw [Option.map_eq_none_iff] at h ⊢
      exact h
    · unfold lookWords at h
      obtain ⟨j, hj, rfl⟩ := Option.map_eq_some_iff.mp h
      exact ⟨0, by rw [get_withData, hj]; rfl, .inr ⟨by decide, rfl⟩⟩
  have := reports (withData t) (lookWords t) hl text pos 0 hp
  simpa [Match.new, withData, prefixMatches] using this

theorem skipTest_eq (s : PState) (m : Match) (d : Str) (hs : s.stop ≤ w.length) (h : m.getCurPos ≤ s.stop) :
    skipTest ct w s m = .ok (!accepted ct w s.stop (m.getCurPos, d)) := by
  unfold skipTest accepted
  by_cases hlt : m.getCurPos < s.stop
  · rw [if_pos hlt, strAt_eq (List.getElem?_eq_getElem (by omega : m.getCurPos < w.length))]
    have h3 : ¬ m.getCurPos = s.stop := by omega
    simp [h3, h, List.getElem?_eq_getElem (by omega : m.getCurPos < w.length)]
  · rw [if_neg hlt]
    have h3 : m.getCurPos = s.stop := by omega
    simp [h3]

/-- The same search in another dictionary. -/
def inDict (m : Match) (d : Dict) : Match := { m with dict := d }

theorem findNext_withData (t : Trie) (data : Option Str) (m : Match) (h : m.dict = withData t) :
    (inDict m ⟨some t, data⟩).findNext = (inDict (m.findNext).1 ⟨some t, data⟩, (m.findNext).2) ∧
      (m.findNext).1.dict = withData t := by
  unfold Match.findNext inDict
  rw [h]
  cases hw : m.walked with
  | none => simp [withData, hw, h]
  | some v => simp [withData, hw, h, findLoop_withData]

theorem exceptLoop_nodata (t : Trie) (ht : ∀ e ∈ t, e.2 ≠ -1) (s : PState) (hs : s.stop ≤ w.length) {m : Match}
    {l : List (Nat × Str)} (h : Reports m l) (hm : m.dict = withData t) (hl : ∀ x ∈ l, x.2 = [1]) :
    ∀ {fuel : Nat}, l.length < fuel → exceptLoop ct w s fuel (inDict m ⟨some t, none⟩) =
      if l.filter (accepted ct w s.stop) = [] then .ok [] else .ub := by
  induction h with
  | stop m h h' =>
    intro fuel hf
    obtain ⟨fuel, rfl⟩ : ∃ n, fuel = n + 1 := ⟨fuel - 1, by simp at hf; omega⟩
    rw [exceptLoop, (findNext_withData t none m hm).1, h]
    rfl
  | found m x l h hd r ih =>
    intro fuel hf
    obtain ⟨fuel, rfl⟩ : ∃ n, fuel = n + 1 := ⟨fuel - 1, by simp at hf; omega⟩
    obtain ⟨h1, h2⟩ := findNext_withData t none m hm
    rw [h] at h1
    rw [exceptLoop_succ s fuel _ _ h1]
    have ih := ih h2 (fun y hy => hl y (by simp [hy])) (fuel := fuel) (by simpa using hf)
    have hx : x = [1] := hl _ (List.mem_cons_self ..)
    have hcur : (inDict (m.findNext).1 ⟨some t, none⟩).getCurPos = (m.findNext).1.getCurPos := rfl
    have hsk : skipTest ct w s (inDict (m.findNext).1 ⟨some t, none⟩) = skipTest ct w s (m.findNext).1 := rfl
    have hget : (inDict (m.findNext).1 ⟨some t, none⟩).getData = .ub := by
      generalize (m.findNext).1 = n at hd h2
      unfold Match.getData at hd
      rw [h2] at hd
      cases hw : n.walked with
      | none => simp [Match.getData, inDict, hw]
      | some v =>
        rw [hw] at hd
        simp only [withData, get_withData] at hd
        cases hg : t.get v with
        | none =>
          rw [hg] at hd
          simp only [Option.map_none, Res.ok.injEq] at hd
          rw [hx] at hd; cases hd
        | some i =>
          have := ht _ (get_mem hg)
          simp only [Match.getData, inDict, hw, hg, Match.trieDataError]
          rw [if_neg this]
          rfl
    rw [hcur, hsk, hget, ih]
    by_cases h3 : (m.findNext).1.getCurPos > s.stop
    · rw [if_pos h3, List.filter_cons_of_neg (by simp [accepted]; omega)]
    · rw [if_neg h3, skipTest_eq s _ x hs (by omega), ok_bind]
      cases ha : accepted ct w s.stop ((m.findNext).1.getCurPos, x) with
      | false =>
        rw [List.filter_cons_of_neg (by simp [ha])]
        rfl
      | true =>
        rw [List.filter_cons_of_pos ha, if_neg (List.cons_ne_nil _ _)]
        rfl

/-- The exceptions found with a trie without data. -/
theorem exceptions_nodata (t : Trie) (ht : ∀ e ∈ t, e.2 ≠ -1) (s : PState) (hs : s.stop ≤ w.length) (hp : s.pos ≤ w.length) :
    exceptions ct w (some ⟨some t, none⟩) s = if dictAt ct w (lookWords t) s.pos s.stop = [] then .ok [] else .ub := by
  have hr := holds_withData t w s.pos hp
  have := exceptLoop_nodata (ct := ct) (w := w) t ht s hs hr rfl (fun x hx => ?_) (fuel := w.length + 1)
    (by have := prefixMatches_length (w := w) (lookWords t) s.pos; omega)
  · exact this
  · obtain ⟨n, -, hn⟩ := List.mem_filterMap.mp hx
    obtain ⟨y, hy, rfl⟩ := Option.map_eq_some_iff.mp hn
    obtain ⟨j, -, rfl⟩ := Option.map_eq_some_iff.mp hy
    rfl

theorem meetsWord_iff {t : Trie} {p : Nat} : MeetsWord ct w brk (t.map fun e => e.1) p ↔
    ∃ e, IsStop ct w brk p e ∧ dictAt ct w (lookWords t) p e ≠ [] := by
  have hw : ∀ v, v ∈ t.map (fun e => e.1) ↔ lookWords t v = some [1] := by
    intro v
    rw [← get_isSome]
    unfold lookWords
    cases t.get v <;> simp
  unfold MeetsWord
  simp only [tokenTo_iff]
  constructor
  · rintro ⟨e, q, h1, h2, h3, h4, h5⟩
    refine ⟨e, h1, fun h0 => (noWord_iff h1.le).mpr h0 q [1] ⟨h2, ?_, (hw _).mp h5, h3, h4⟩⟩
    have := h1.le
    omega
  · rintro ⟨e, h1, h2⟩
    obtain ⟨⟨q, data⟩, hm⟩ := List.exists_mem_of_ne_nil _ h2
    obtain ⟨k1, k2, k3, k4, k5⟩ := (wordAt_iff h1.le).mpr hm
    refine ⟨e, q, h1, k1, k4, k5, (hw _).mpr ?_⟩
    rw [k3]
    unfold lookWords at k3
    obtain ⟨_, -, rfl⟩ := Option.map_eq_some_iff.mp k3
    rfl

/-- A state inside its token at which no word is met is expanded as without dictionary. -/
theorem expand_nodata (t : Trie) (ht : ∀ e ∈ t, e.2 ≠ -1) {s : PState} (hs : SOK ct w brk s)
    (h : s.pos < s.stop → ¬ MeetsWord ct w brk (t.map fun e => e.1) s.pos) :
    expand ct w (some ⟨some t, none⟩) brk s = expand ct w none brk s := by
  refine expand_congr fun hlt => ?_
  have hst := hs.stop hlt
  rw [exceptions_nodata t ht s hst.le hs.pos, if_pos]
  · rfl
  · by_contra hne
    exact h hlt (meetsWord_iff.mpr ⟨_, hst, hne⟩)

theorem expand_nodata_ub (t : Trie) (ht : ∀ e ∈ t, e.2 ≠ -1) {s : PState} (hs : SOK ct w brk s) (hlt : s.pos < s.stop)
    (h : MeetsWord ct w brk (t.map fun e => e.1) s.pos) : expand ct w (some ⟨some t, none⟩) brk s = .ub := by
  have hst := hs.stop hlt
  obtain ⟨e, h1, h2⟩ := meetsWord_iff.mp h
  rw [h1.unique hst] at h2
  unfold expand
  rw [if_neg (by omega)]
  unfold tokenStates
  rw [exceptions_nodata t ht s hst.le hs.pos, if_neg h2]
  rfl

theorem holds_nothing : Holds none fun _ => none := fun _ => rfl

/-- If no partial reading meets a word of the trie, the result is that without dictionary. -/
theorem parse_nodata (hct : ct.Ok) (t : Trie) (ht : ∀ e ∈ t, e.2 ≠ -1)
    (h : ∀ c, Deriv ct w (fun _ => none) brk c → ¬ MeetsWord ct w brk (t.map fun e => e.1) c.pos) :
    parseU16 ct w (some ⟨some t, none⟩) brk = parseU16 ct w none brk := by
  unfold parseU16
  cases hp : parseInit ct w brk with
  | ok pool =>
    rw [ok_bind, ok_bind]
    symm
    refine whileLoop_congr (I := LInv ct w brk fun _ => none) ?_ ?_ (parseInit_inv hct hp)
    · rintro ⟨pool, acc⟩ hI
      cases pool with
      | nil => rfl
      | cons s pool =>
        rw [parseStep_cons hct, parseStep_cons hct]
        by_cases hl : s.pos ≥ w.length
        · rw [if_pos hl, if_pos hl]
        · obtain ⟨es, hes⟩ := (hI.snd s (by simp)).some
          rw [if_neg hl, if_neg hl, expand_nodata t ht (hI.sok s (by simp)) fun _ => h _ hes]
    · rintro ⟨pool, acc⟩ st hI hs
      cases pool with
      | nil => rw [parseStep] at hs; cases hs
      | cons s pool =>
        rw [parseStep_cons hct] at hs
        by_cases hl : s.pos ≥ w.length
        · rw [if_pos hl] at hs
          cases hs
          exact linv_final hct hI hl
        · rw [if_neg hl, bind_eq_ok] at hs
          obtain ⟨ss, hss, hs⟩ := hs
          cases hs
          exact linv_expand hct hI (by omega) (expand_expands hct holds_nothing (hI.sok s (by simp)) (by omega) hss)
  | throw e => rfl
  | ub => rfl
  | diverge => rfl

theorem pool_fold {l : StatePool} (h : Pool (fun _ => True) l) (ss : List PState) :
    Pool (fun _ => True) (ss.foldl StatePool.add l) := by
  induction ss generalizing l with
  | nil => exact h
  | cons s ss ih => exact ih (.add s trivial h)

/-- A state that is only given its token is not beyond a reading that lies in a token. -/
theorem expands_refresh {look : List Nat → Option Str} {c : Config} {e : Nat} (hst : IsStop ct w brk c.pos e) {s : PState}
    {ss} (hs : s.stop ≤ s.pos) (hm : Matches s c) (hex : Expands ct w brk look s ss) : ∃ t, ss = [{ s with stop := t }] := by
  have hpos := hm.pos
  cases hex with
  | gap hq _ _ => exact absurd hst.token (hpos ▸ hq.no _ le_rfl hq.lt)
  | stop _ _ => exact ⟨_, rfl⟩
  | dict h _ _ | abbr h _ _ _ _ | dot h _ _ _ _ | syl h _ _ _ _ => exact absurd h.lt (by omega)

/-- If a partial reading meets a word of the trie, the parser is undefined. -/
theorem parse_nodata_ub (hct : ct.Ok) (t : Trie) (ht : ∀ e ∈ t, e.2 ≠ -1) (hb : ∀ b ∈ brk, b ≤ w.length) {c : Config}
    (hder : Deriv ct w (fun _ => none) brk c) (hmeet : MeetsWord ct w brk (t.map fun e => e.1) c.pos) :
    parseU16 ct w (some ⟨some t, none⟩) brk = .ub := by
  obtain ⟨e, hst, -⟩ := meetsWord_iff.mp hmeet
  have hlt : c.pos < w.length := by have := hst.lt; have := hst.le; omega
  have hterm := parseU16_term (w := w) (brk := brk) hct (some ⟨some t, none⟩)
  unfold parseU16 parseInit at hterm ⊢
  obtain ⟨s, hs⟩ := refresh_ok (ct := ct) (s := ⟨0, 0, DAG.empty, false⟩) hb
  have hpool : parseInit ct w brk = .ok (StatePool.add [] s) := by unfold parseInit; rw [hs]; rfl
  rw [hs, ok_bind] at hterm ⊢
  simp only [pure_eq, ok_bind] at hterm ⊢
  obtain ⟨n, hn, hn'⟩ := iterLoop_of_whileLoop hterm
  rw [← hn]
  have hinv := parseInit_inv (look := fun _ => none) hct hpool
  have hpend := pending_start hct hlt (fun h => expands_refresh hst h) hder hpool
  have hsort : Pool (fun _ => True) (StatePool.add [] s) := .add s trivial .empty
  clear hn hterm
  generalize hst0 : (StatePool.add [] s, (DAG.empty : PronunDAG)) = st at hinv hn'
  have h1 : st.1 = StatePool.add [] s := by rw [← hst0]
  rw [← h1] at hpend hsort
  clear hst0 h1 hpool hs s
  induction n generalizing st with
  | zero => exact absurd rfl hn'
  | succ n ih =>
    obtain ⟨pool, acc⟩ := st
    unfold iterLoop at hn' ⊢
    cases pool with
    | nil => obtain ⟨s, hs, -⟩ := hpend; cases hs
    | cons s pool =>
      rw [parseStep_cons hct] at hn' ⊢
      by_cases hp : s.pos ≥ w.length
      · rw [if_pos hp] at hn' ⊢
        exact ih _ (hinv := linv_final hct hinv hp) (hn' := hn') (hpend := pending_final hct hlt hpend hp) (hsort := .pop hsort)
      · rw [if_neg hp] at hn' ⊢
        by_cases hbad : s.pos < s.stop ∧ MeetsWord ct w brk (t.map fun e => e.1) s.pos
        · rw [expand_nodata_ub t ht (hinv.sok s (by simp)) hbad.1 hbad.2]
          rfl
        · have heq := expand_nodata (w := w) (brk := brk) t ht (hinv.sok s (by simp)) fun h1 h2 => hbad ⟨h1, h2⟩
          rw [heq] at hn' ⊢
          rcases expand_throw hct holds_nothing (met_of_readable readable_none) hb (hinv.sok s (by simp))
            (hinv.snd s (by simp)) (by omega) with ⟨ss, hss⟩ | ⟨hss, c', hc', hstuck⟩
          · rw [hss] at hn' ⊢
            have hex := expand_expands hct holds_nothing (hinv.sok s (by simp)) (by omega) hss
            refine ih _ (hinv := linv_expand hct hinv (by omega) hex) (hn' := hn')
              (hpend := pending_step hct (fun hm => ?_) hpend hex) (hsort := pool_fold (.pop hsort) ss)
            rcases Nat.lt_or_ge s.pos s.stop with h1 | h1
            · exact absurd ⟨h1, hm.pos ▸ hmeet⟩ hbad
            · exact expands_refresh hst h1 hm hex
          · exfalso
            obtain ⟨-, hlen, e', x, hst', -⟩ := hstuck
            obtain ⟨y, hy, c0, hm, hr⟩ := hpend
            have hle : c0.pos ≤ c.pos := by
              clear * - hr hct
              induction hr with
              | refl => exact le_rfl
              | tail _ hs ih => have := hs.lt hct; omega
            have hmin : s.pos ≤ y.pos := by
              rcases List.mem_cons.mp hy with rfl | hy
              · exact le_rfl
              · exact (List.pairwise_cons.mp (C45_min hsort)).1 y hy
            have heq : c.pos = s.pos := by have := hm.pos; omega
            rw [heq] at hmeet
            refine hbad ⟨?_, hmeet⟩
            by_contra h1
            -- a state without token would only be refreshed
            obtain ⟨s', h⟩ := refresh_ok (ct := ct) (s := s) hb
            rw [expand, if_pos (by omega), h] at hss
            cases hss

end
end Thpronun
