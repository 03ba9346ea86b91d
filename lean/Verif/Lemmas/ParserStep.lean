import Verif.Lemmas.ParserDag

/-! # One turn of the parser loop: helper lemmas -/

namespace Thpronun
open Res Spec DAG

section
variable (ct : CType) (w : U16Str)

/-- The successors of a state by the character at its position. -/
def charStates (s : PState) : Res (List PState) := do
  let c ← strAt w s.pos
  if c = ch!"." then do
    let d ← stretchDot s.pos (s.dag.inDegree s.pos + 1) s.dag
    pure [{ s with dag := d, pos := s.pos + 1 }]
  else do
    let ems ← grammar ct w s.pos s.stop s.linked c
    pure (ems.map fun e => ⟨e.pos, s.stop, addEdges s.dag (sylEdges s.pos e), e.linked⟩)

/-- The dictionary search of one turn. -/
def exceptions (dict : Option Dict) (s : PState) : Res (List PState) :=
  match dict with
  | some d => findExceptions ct w s d
  | none => pure []

/-- The states added for a state inside its token. -/
def tokenStates (dict : Option Dict) (s : PState) : Res (List PState) :=
  exceptions ct w dict s >>= fun ex =>
    if ex.length > 0 then .ok ex else findAbbr ct w s >>= fun r =>
      match r with
      | some s' => .ok [s']
      | none => charStates ct w s

/-- The states added for a state. -/
def expand (dict : Option Dict) (brk : List Int) (s : PState) : Res (List PState) :=
  if s.pos ≥ s.stop then refresh ct w brk s >>= fun s' => .ok [s'] else tokenStates ct w dict s

end

section
variable {ct : CType} {w : U16Str} {brk : List Int}

theorem parseChar_eq (hct : ct.Ok) (s : PState) (pool : StatePool) :
    parseChar ct w s pool = charStates ct w s >>= fun ss => .ok (ss.foldl StatePool.add pool) := by
  unfold parseChar charStates
  cases hc : strAt w s.pos with
  | ok c =>
    simp only [ok_bind]
    by_cases hd : c = ch!"."
    · subst hd
      have h1 : ct.isCons ch!"." = false := not_cons_dot hct
      have h2 : ct.isLdVowel ch!"." = false := by
        rw [← Bool.not_eq_true]; intro h; have := hct.ld _ h; omega
      rw [if_neg (by simp [h1]), if_neg (by decide), if_neg (by simp [h2]), if_neg (by decide), if_pos rfl, if_pos rfl]
      cases stretchDot s.pos (s.dag.inDegree s.pos + 1) s.dag <;> rfl
    · rw [if_neg hd, if_neg hd]
      unfold grammar
      simp only [eq_comm (a := UTH.SARA_E), eq_comm (a := UTH.RU), eq_comm (a := UTH.LU)]
      have key : ∀ r : Res (List Emit), (r >>= fun es => pure (addEmits pool s es)) =
          ((r >>= fun ems => pure (ems.map fun e =>
            (⟨e.pos, s.stop, addEdges s.dag (sylEdges s.pos e), e.linked⟩ : PState))) >>= fun ss =>
            Res.ok (ss.foldl StatePool.add pool)) := by
        intro r
        cases r with
        | ok es => simp only [ok_bind, pure_eq, addEmits_eq]
        | throw e => rfl
        | ub => rfl
        | diverge => rfl
      by_cases h1 : ct.isCons c = true
      · rw [if_pos h1, if_pos h1]; exact key _
      · rw [if_neg h1, if_neg h1]
        by_cases h2 : c = UTH.SARA_E
        · rw [if_pos h2, if_pos h2]; exact key _
        · rw [if_neg h2, if_neg h2]
          by_cases h3 : ct.isLdVowel c = true
          · rw [if_pos h3, if_pos h3]; exact key _
          · rw [if_neg h3, if_neg h3]
            by_cases h4 : c = UTH.RU ∨ c = UTH.LU
            · rw [if_pos h4, if_pos h4]; exact key _
            · rw [if_neg h4, if_neg h4]; rfl
  | throw e => rfl
  | ub => rfl
  | diverge => rfl

theorem parseStep_cons (hct : ct.Ok) (dict : Option Dict) (s : PState) (pool : StatePool) (acc : PronunDAG) :
    parseStep ct w dict brk (s :: pool, acc) =
      if s.pos ≥ w.length then .ok (.inl (pool, acc.unionDAG s.dag))
      else expand ct w dict brk s >>= fun ss => .ok (.inl (ss.foldl StatePool.add pool, acc)) := by
  rw [parseStep]
  by_cases h1 : s.pos ≥ w.length
  · rw [if_pos h1, if_pos h1]
  · rw [if_neg h1, if_neg h1]
    unfold expand
    by_cases h2 : s.pos ≥ s.stop
    · rw [if_pos h2, if_pos h2, bind_assoc']; rfl
    · rw [if_neg h2, if_neg h2]
      unfold tokenStates
      rw [bind_assoc']
      have hrest : ∀ ex : List PState,
          (if ex.length > 0 then (pure (.inl (ex.foldl StatePool.add pool, acc)) :
              Res ((StatePool × PronunDAG) ⊕ PronunDAG))
            else do
              match ← findAbbr ct w s with
              | some s' => pure (.inl (StatePool.add pool s', acc))
              | none => do pure (.inl (← parseChar ct w s pool, acc))) =
          (if ex.length > 0 then .ok ex else findAbbr ct w s >>= fun r =>
            match r with
            | some s' => .ok [s']
            | none => charStates ct w s) >>= fun ss => .ok (.inl (ss.foldl StatePool.add pool, acc)) := by
        intro ex
        by_cases h3 : ex.length > 0
        · rw [if_pos h3, if_pos h3]; rfl
        · rw [if_neg h3, if_neg h3]
          cases findAbbr ct w s with
          | ok r =>
            cases r with
            | some s' => rfl
            | none =>
              simp only [ok_bind, parseChar_eq hct]
              cases charStates ct w s <;> rfl
          | throw e => rfl
          | ub => rfl
          | diverge => rfl
      unfold exceptions
      cases dict with
      | none => exact hrest []
      | some d =>
        simp only
        cases findExceptions ct w s d with
        | ok ex => exact hrest ex
        | throw e => rfl
        | ub => rfl
        | diverge => rfl

/-! ## Invariants of a state -/

variable (ct w brk) in
structure SOK (s : PState) : Prop where
  dag : DOK s.dag
  pos : s.pos ≤ w.length
  stop : s.pos < s.stop → IsStop ct w brk s.pos s.stop

/-- `(u, v, y)` is among the edges. -/
def In (es : List (Entry Syl)) (u v : Int) (y : Syl) : Prop :=
  ∃ e ∈ es, e.key = u ∧ e.target = v ∧ ceq e.val y = true

variable (ct w brk) in
/-- The possible expansions of a state. -/
inductive Expands (look : List Nat → Option Str) (s : PState) : List PState → Prop
  | gap {q t} : IsGap ct w s.pos q → (q < t → IsStop ct w brk q t) → (q < w.length → q < t) →
      Expands look s [⟨q, t, addEdges s.dag [⟨s.pos, q, Syl.lit q (piece w s.pos q)⟩], s.linked⟩]
  | stop {t} : s.stop ≤ s.pos → IsStop ct w brk s.pos t → Expands look s [{ s with stop := t }]
  | dict {ss} : IsStop ct w brk s.pos s.stop → dictAt ct w look s.pos s.stop ≠ [] →
      List.Forall₂ (DictState s) (dictAt ct w look s.pos s.stop) ss → Expands look s ss
  | abbr {s' new} : IsStop ct w brk s.pos s.stop → dictAt ct w look s.pos s.stop = [] →
      IsAbbr ct w s.pos s.stop s'.pos → abbrEdges w s.pos s'.pos = .ok new →
      s' = ⟨s'.pos, s.stop, addEdges s.dag new, false⟩ → Expands look s [s']
  | dot {d} : IsStop ct w brk s.pos s.stop → Plain ct w look s.pos s.stop → w[s.pos]? = some ch!"." →
      DOK d → (∀ u v x, Edge d u v x ↔
        (v ≠ s.pos ∧ Edge s.dag u v x) ∨ (v = (s.pos : Int) + 1 ∧ Edge s.dag u s.pos x)) →
      Expands look s [⟨s.pos + 1, s.stop, d, s.linked⟩]
  | syl {c ems} : IsStop ct w brk s.pos s.stop → Plain ct w look s.pos s.stop → w[s.pos]? = some c → c ≠ ch!"." →
      grammar ct w s.pos s.stop s.linked c = .ok ems →
      Expands look s (ems.map fun e => ⟨e.pos, s.stop, addEdges s.dag (sylEdges s.pos e), e.linked⟩)

theorem refresh_sat {s : PState} (hp : s.pos < w.length) :
    (refresh ct w brk s).SatP fun s' =>
      (∃ q t, IsGap ct w s.pos q ∧ (q < t → IsStop ct w brk q t) ∧ (q < w.length → q < t) ∧
        s' = ⟨q, t, addEdges s.dag [⟨s.pos, q, Syl.lit q (piece w s.pos q)⟩], s.linked⟩) ∨
      ∃ t, IsStop ct w brk s.pos t ∧ s' = { s with stop := t } := by
  rw [satP_iff]
  intro s' h
  unfold refresh at h
  simp only at h
  by_cases hg : skipNonThai ct w s.pos > s.pos
  · left
    simp only [if_pos hg] at h
    refine ⟨skipNonThai ct w s.pos, s'.stop, isGap_skip hp.le hg, ?_⟩
    by_cases hl : skipNonThai ct w s.pos < w.length
    · rw [if_pos hl, bind_eq_ok] at h
      obtain ⟨t, ht, h⟩ := h
      have hstop := nextWordStop_ok (skipNonThai_token hl) ht
      simp only [pure_eq, Res.ok.injEq] at h
      subst h
      exact ⟨fun _ => hstop, fun _ => hstop.lt, rfl⟩
    · rw [if_neg hl] at h
      simp only [pure_eq, Res.ok.injEq] at h
      subst h
      refine ⟨fun h => ?_, fun h => ?_, rfl⟩
      · simp only at h; omega
      · omega
  · right
    simp only [if_neg hg, if_pos hp] at h
    rw [bind_eq_ok] at h
    obtain ⟨t, ht, h⟩ := h
    simp only [pure_eq, Res.ok.injEq] at h
    subst h
    exact ⟨t, nextWordStop_ok (token_of_skip_eq hp hg) ht, rfl⟩

theorem expand_expands (hct : ct.Ok) {dict : Option Dict} {look} (hd : Holds dict look) {s : PState}
    (hs : SOK ct w brk s) (hp : s.pos < w.length) {ss : List PState} (h : expand ct w dict brk s = .ok ss) :
    Expands ct w brk look s ss := by
  unfold expand at h
  by_cases h1 : s.pos ≥ s.stop
  · rw [if_pos h1, bind_eq_ok] at h
    obtain ⟨s', hr, h⟩ := h
    cases h
    rcases (satP_iff _ _).mp (refresh_sat hp) _ hr with ⟨q, t, hq, ht, ht', rfl⟩ | ⟨t, ht, rfl⟩
    · exact .gap hq ht ht'
    · exact .stop h1 ht
  · rw [if_neg h1] at h
    have hst := hs.stop (by omega)
    unfold tokenStates at h
    rw [bind_eq_ok] at h
    obtain ⟨ex, hex, h⟩ := h
    have hex := (exceptions_ok hd s hst.le hs.pos ex).mp hex
    by_cases h2 : ex.length > 0
    · rw [if_pos h2] at h
      cases h
      refine .dict hst ?_ hex
      intro h0
      rw [h0] at hex
      cases hex
      exact absurd h2 (by simp)
    · rw [if_neg h2, bind_eq_ok] at h
      obtain ⟨r, hr, h⟩ := h
      have hnil : ex = [] := by cases ex with | nil => rfl | cons => simp at h2
      have hdict : dictAt ct w look s.pos s.stop = [] := by
        rw [hnil] at hex
        generalize dictAt ct w look s.pos s.stop = l at hex ⊢
        cases hex; rfl
      obtain ⟨r', hr', ha⟩ := (sat_iff _ _).mp (findAbbr_sat hct s hst.lt hst.le)
      rw [hr] at hr'; cases hr'
      match r, ha with
      | some s', ⟨new, h3, h4, h5⟩ =>
        cases h
        exact .abbr hst hdict h3 h4 h5
      | none, ha =>
        simp only at h
        unfold charStates at h
        rw [strAt_eq (List.getElem?_eq_getElem hp), ok_bind] at h
        by_cases hdot : w[s.pos] = ch!"."
        · rw [if_pos hdot] at h
          obtain ⟨d, h6, h7, h8⟩ := (sat_iff _ _).mp (stretchDot_sat (s.dag.inDegree s.pos + 1) s.dag hs.dag
            (Nat.lt_succ_self _))
          rw [h6, ok_bind] at h
          cases h
          exact .dot hst ⟨hdict, ha⟩ (by rw [List.getElem?_eq_getElem hp, hdot]) h7 h8
        · rw [if_neg hdot, bind_eq_ok] at h
          obtain ⟨ems, h6, h⟩ := h
          cases h
          exact .syl hst ⟨hdict, ha⟩ (List.getElem?_eq_getElem hp) hdot h6

end
end Thpronun
