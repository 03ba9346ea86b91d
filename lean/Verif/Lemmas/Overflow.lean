import Verif.Spec.Overflow
import Verif.Lemmas.ParserInt
import Verif.Lemmas.Rules

/-! # Lemmas on overflow in the parser -/

namespace Thpronun
open Res Spec DAG

variable {ct : CType} {w : U16Str} {brk : List Int} {look : List Nat → Option Str}

theorem int32_ub {x : Int} (h : NoInt x) : int32 x = .ub := if_neg (by unfold NoInt at h; omega)

theorem int32_ok' {x : Int} (h : ¬ NoInt x) : int32 x = .ok x := if_pos (by unfold NoInt at h; omega)

theorem preNode32_ub {cur pos : Nat} (h : NoInt (100 * cur + pos)) : preNode32 cur pos = .ub := by
  unfold preNode32
  by_cases h1 : NoInt ((cur : Int) * 100)
  · rw [int32_ub h1]; rfl
  · rw [int32_ok' h1, ok_bind, int32_ub (by rwa [Int.mul_comm])]; rfl

/-! ## Syllables -/

/-- A syllable with a pre-syllable whose node is no `int`. -/
def Far (p : Nat) (e : Emit) : Prop := e.p.pre ≠ none ∧ NoInt (100 * p + e.pos)

theorem addSyl32_near {s : PState} {e : Emit} (h : ¬ Far s.pos e) : addSyl32 s e.p e.pos = .ok (addSyl s e.p e.pos) := by
  unfold addSyl32 addSyl
  cases hp : e.p.pre with
  | none => rfl
  | some pre =>
    have : ¬ NoInt (100 * s.pos + e.pos) := fun k => h ⟨by rw [hp]; simp, k⟩
    simp only [preNode32_ok (cur := s.pos) (pos := e.pos) (by unfold NoInt at this; omega), ok_bind, pure_eq]

theorem addSyl32_far {s : PState} {e : Emit} (h : Far s.pos e) : addSyl32 s e.p e.pos = .ub := by
  unfold addSyl32
  cases hp : e.p.pre with
  | none => exact absurd hp h.1
  | some pre => simp only [preNode32_ub h.2]; rfl

theorem addEmits32_near {s : PState} : ∀ (es : List Emit) (pool : StatePool), (∀ e ∈ es, ¬ Far s.pos e) →
    addEmits32 pool s es = .ok (addEmits pool s es)
  | [], pool, _ => rfl
  | e :: es, pool, h => by
    rw [addEmits32, addSyl32_near (h e (by simp)), ok_bind, addEmits32_near es _ fun x hx => h x (by simp [hx])]
    rfl

theorem addEmits32_far {s : PState} : ∀ (es : List Emit) (pool : StatePool), (∃ e ∈ es, Far s.pos e) → addEmits32 pool s es = .ub
  | [], pool, h => by obtain ⟨e, he, -⟩ := h; cases he
  | e :: es, pool, h => by
    rw [addEmits32]
    by_cases hf : Far s.pos e
    · rw [addSyl32_far hf]; rfl
    · rw [addSyl32_near hf, ok_bind]
      refine addEmits32_far es _ ?_
      obtain ⟨x, hx, hx'⟩ := h
      rcases List.mem_cons.mp hx with rfl | hx
      · exact absurd hx' hf
      · exact ⟨x, hx, hx'⟩

/-- A syllable of the grammar at the state leads too far. -/
def SylFar (ct : CType) (w : U16Str) (s : PState) : Prop :=
  ∃ c ems, w[s.pos]? = some c ∧ grammar ct w s.pos s.stop s.linked c = .ok ems ∧ ∃ e ∈ ems, Far s.pos e

theorem parseChar32_near {s : PState} {pool : StatePool} (h : ¬ SylFar ct w s) : parseChar32 ct w s pool = parseChar ct w s pool := by
  unfold parseChar parseChar32
  cases hg : w[s.pos]? with
  | none => unfold strAt; rw [hg]; rfl
  | some c =>
    rw [strAt_eq hg]
    simp only [ok_bind]
    have key : ∀ r : Res (List Emit), grammar ct w s.pos s.stop s.linked c = r →
        (r >>= fun es => addEmits32 pool s es) = (r >>= fun es => pure (addEmits pool s es)) := by
      intro r hr
      cases r with
      | ok es =>
        rw [ok_bind, ok_bind]
        exact addEmits32_near es pool fun e he hf => h ⟨c, es, hg, hr, e, he, hf⟩
      | throw e => rfl
      | ub => rfl
      | diverge => rfl
    unfold grammar at key
    simp only [eq_comm (a := UTH.SARA_E), eq_comm (a := UTH.RU), eq_comm (a := UTH.LU)]
    by_cases h1 : ct.isCons c = true
    · rw [if_pos h1, if_pos h1]; rw [if_pos h1] at key; exact key _ rfl
    · rw [if_neg h1, if_neg h1]; rw [if_neg h1] at key
      by_cases h2 : c = UTH.SARA_E
      · rw [if_pos h2, if_pos h2]; rw [if_pos h2] at key; exact key _ rfl
      · rw [if_neg h2, if_neg h2]; rw [if_neg h2] at key
        by_cases h3 : ct.isLdVowel c = true
        · rw [if_pos h3, if_pos h3]; rw [if_pos h3] at key; exact key _ rfl
        · rw [if_neg h3, if_neg h3]; rw [if_neg h3] at key
          by_cases h4 : c = UTH.RU ∨ c = UTH.LU
          · rw [if_pos h4, if_pos h4]; rw [if_pos h4] at key; exact key _ rfl
          · rw [if_neg h4, if_neg h4]

theorem parseChar32_far {s : PState} {pool : StatePool} (h : SylFar ct w s) : parseChar32 ct w s pool = .ub := by
  obtain ⟨c, ems, hg, hr, hf⟩ := h
  unfold parseChar32
  rw [strAt_eq hg]
  simp only [ok_bind]
  have key : ∀ r : Res (List Emit), grammar ct w s.pos s.stop s.linked c = r → (r >>= fun es => addEmits32 pool s es) = .ub := by
    rintro r rfl
    rw [hr, ok_bind]
    exact addEmits32_far ems pool hf
  unfold grammar at key hr
  simp only [eq_comm (a := UTH.SARA_E), eq_comm (a := UTH.RU), eq_comm (a := UTH.LU)]
  by_cases h1 : ct.isCons c = true
  · rw [if_pos h1]; rw [if_pos h1] at key; exact key _ rfl
  · rw [if_neg h1]; rw [if_neg h1] at key hr
    by_cases h2 : c = UTH.SARA_E
    · rw [if_pos h2]; rw [if_pos h2] at key; exact key _ rfl
    · rw [if_neg h2]; rw [if_neg h2] at key hr
      by_cases h3 : ct.isLdVowel c = true
      · rw [if_pos h3]; rw [if_pos h3] at key; exact key _ rfl
      · rw [if_neg h3]; rw [if_neg h3] at key hr
        by_cases h4 : c = UTH.RU ∨ c = UTH.LU
        · rw [if_pos h4]; rw [if_pos h4] at key; exact key _ rfl
        · rw [if_neg h4] at hr
          cases hr
          obtain ⟨e, he, -⟩ := hf
          cases he

/-! ## Dictionary words -/

theorem shiftPos32_eq {p : Nat} {e : Int} :
    (¬ NoInt (SylString.shiftPos p e) → shiftPos32 p e = .ok (SylString.shiftPos p e)) ∧
    (NoInt (SylString.shiftPos p e) → shiftPos32 p e = .ub) := by
  unfold shiftPos32 SylString.shiftPos
  by_cases h : e < 0
  · rw [if_pos h, if_pos h]
    constructor
    · intro hn
      rw [int32_ok' (by unfold NoInt at hn ⊢; omega), ok_bind, int32_ok' hn]
    · intro hn
      by_cases h1 : NoInt ((p : Int) * 101)
      · rw [int32_ub h1]; rfl
      · rw [int32_ok' h1, ok_bind, int32_ub hn]
  · rw [if_neg h, if_neg h]
    exact ⟨int32_ok', int32_ub⟩

/-- A reading that cannot be moved to `p`. -/
def StrFar (p : Nat) (str : SylString) : Prop := ∃ s ∈ str, NoInt (SylString.shiftPos p s.endPos)

theorem shiftEndPos32_eq {p : Nat} (str : SylString) :
    (¬ StrFar p str → shiftEndPos32 str p = .ok (SylString.shiftEndPos str p)) ∧ (StrFar p str → shiftEndPos32 str p = .ub) := by
  unfold shiftEndPos32 SylString.shiftEndPos
  induction str with
  | nil => exact ⟨fun _ => rfl, fun ⟨s, h, _⟩ => by cases h⟩
  | cons s str ih =>
    rw [SylString.mapRes]
    by_cases hs : NoInt (SylString.shiftPos p s.endPos)
    · refine ⟨fun h => absurd ⟨s, by simp, hs⟩ h, fun _ => ?_⟩
      rw [shiftPos32_eq.2 hs]; rfl
    · rw [shiftPos32_eq.1 hs, ok_bind, pure_eq, ok_bind]
      constructor
      · intro h
        rw [ih.1 fun ⟨x, hx, hx'⟩ => h ⟨x, by simp [hx], hx'⟩]
        rfl
      · rintro ⟨x, hx, hx'⟩
        rcases List.mem_cons.mp hx with rfl | hx
        · exact absurd hx' hs
        · rw [ih.2 ⟨x, hx, hx'⟩]; rfl

theorem exceptDag32_far {p : Nat} : ∀ (strs : List SylString) (d : PronunDAG), (∃ x ∈ strs, StrFar p x) → exceptDag32 p d strs = .ub
  | [], d, h => by obtain ⟨x, hx, -⟩ := h; cases hx
  | x :: xs, d, h => by
    rw [exceptDag32]
    by_cases hf : StrFar p x
    · rw [(shiftEndPos32_eq x).2 hf]; rfl
    · rw [(shiftEndPos32_eq x).1 hf, ok_bind]
      refine exceptDag32_far xs _ ?_
      obtain ⟨y, hy, hy'⟩ := h
      rcases List.mem_cons.mp hy with rfl | hy
      · exact absurd hy' hf
      · exact ⟨y, hy, hy'⟩

/-- The data have a reading that cannot be moved to `p`. -/
def DataFar (p : Nat) (data : Str) : Prop := ∃ strs, SylString.makeSylStrings data = .ok strs ∧ ∃ x ∈ strs, StrFar p x

theorem exceptLoop32_succ (s : PState) (fuel : Nat) (m m' : Match) (h : m.findNext = (m', true)) :
    exceptLoop32 ct w s (fuel + 1) m = if m'.getCurPos > s.stop then exceptLoop32 ct w s fuel m' else
      skipTest ct w s m' >>= fun skip => if skip then exceptLoop32 ct w s fuel m' else
        (m'.getData >>= fun t => SylString.makeSylStrings t >>= fun strs => exceptDag32 s.pos s.dag strs >>= fun d =>
          exceptLoop32 ct w s fuel m' >>= fun rest => pure (⟨m'.getCurPos, s.stop, d, false⟩ :: rest)) := by
  rw [exceptLoop32, h]
  simp only
  by_cases h1 : m'.getCurPos > s.stop
  · rw [if_pos h1, if_pos h1]
  · rw [if_neg h1, if_neg h1]
    unfold skipTest
    by_cases h2 : m'.getCurPos < s.stop
    · rw [if_pos h2, if_pos h2, bind_assoc']
    · rw [if_neg h2, if_neg h2]

theorem skipTest_accepted {s : PState} {m : Match} {d : Str} (hs : s.stop ≤ w.length) (h : ¬ m.getCurPos > s.stop) :
    skipTest ct w s m = .ok (!accepted ct w s.stop (m.getCurPos, d)) := by
  unfold skipTest accepted
  by_cases hlt : m.getCurPos < s.stop
  · have h2 : m.getCurPos ≤ s.stop := by omega
    have h3 : ¬ m.getCurPos = s.stop := by omega
    rw [if_pos hlt, strAt_eq (List.getElem?_eq_getElem (by omega : m.getCurPos < w.length)), ok_bind, pure_eq]
    dsimp only
    rw [List.getElem?_eq_getElem (by omega : m.getCurPos < w.length)]
    simp [h2, h3]
  · have h3 : m.getCurPos = s.stop := by omega
    rw [if_neg hlt]
    simp [h3]

theorem exceptLoop32_cases {s : PState} (hs : s.stop ≤ w.length) {m : Match} {l : List (Nat × Str)} (h : Reports m l) : ∀ fuel,
    ((∀ x ∈ l.filter (accepted ct w s.stop), ¬ DataFar s.pos x.2) → exceptLoop32 ct w s fuel m = exceptLoop ct w s fuel m) ∧
    ((∃ x ∈ l.filter (accepted ct w s.stop), DataFar s.pos x.2) → ∀ ex, exceptLoop ct w s fuel m = .ok ex →
      exceptLoop32 ct w s fuel m = .ub) := by
  induction h with
  | stop m h h' =>
    intro fuel
    refine ⟨fun _ => ?_, fun ⟨x, hx, _⟩ => by cases hx⟩
    cases fuel with
    | zero => rfl
    | succ fuel =>
      rw [exceptLoop, exceptLoop32]
      cases hb : m.findNext with
      | mk m' b =>
      rw [hb] at h
      simp only at h
      subst h
      rfl
  | found m d l h hd r ih =>
    intro fuel
    cases fuel with
    | zero => exact ⟨fun _ => rfl, fun _ ex h => by cases h⟩
    | succ fuel =>
      cases hb : m.findNext with
      | mk m' b =>
      rw [hb] at h hd r ih
      simp only at h hd r ih
      subst h
      rw [exceptLoop_succ s fuel m m' hb, exceptLoop32_succ s fuel m m' hb]
      have ih := ih fuel
      by_cases h1 : m'.getCurPos > s.stop
      · rw [if_pos h1, if_pos h1, List.filter_cons_of_neg (by simp [accepted]; omega)]
        exact ih
      · rw [if_neg h1, if_neg h1, skipTest_accepted (d := d) hs h1, ok_bind, ok_bind]
        cases ha : accepted ct w s.stop (m'.getCurPos, d) with
        | false =>
          rw [List.filter_cons_of_neg (by simp [ha])]
          exact ih
        | true =>
          rw [List.filter_cons_of_pos ha, hd, ok_bind, ok_bind, if_neg (by simp), if_neg (by simp)]
          constructor
          · intro hn
            cases hm : SylString.makeSylStrings d with
            | ok strs =>
              have hsafe : ∀ x ∈ strs, shiftEndPos32 x s.pos = .ok (SylString.shiftEndPos x s.pos) := fun x hx =>
                (shiftEndPos32_eq x).1 fun hf => hn _ (List.mem_cons_self ..) ⟨strs, hm, x, hx, hf⟩
              rw [ok_bind, ok_bind, exceptDag32_ok strs s.dag hsafe, ok_bind, ih.1 fun x hx => hn x (by simp [hx])]
              rfl
            | throw e => rfl
            | ub => rfl
            | diverge => rfl
          · rintro ⟨x, hx, hf⟩ ex hex
            obtain ⟨strs, hm, hex⟩ := bind_eq_ok.mp hex
            obtain ⟨rest, hrest, -⟩ := bind_eq_ok.mp hex
            rw [hm, ok_bind]
            by_cases hf0 : ∃ y ∈ strs, StrFar s.pos y
            · rw [exceptDag32_far strs s.dag hf0]; rfl
            · have hsafe : ∀ x ∈ strs, shiftEndPos32 x s.pos = .ok (SylString.shiftEndPos x s.pos) := fun x hx =>
                (shiftEndPos32_eq x).1 fun hf => hf0 ⟨x, hx, hf⟩
              rw [exceptDag32_ok strs s.dag hsafe, ok_bind]
              rcases List.mem_cons.mp hx with rfl | hx
              · exfalso
                obtain ⟨strs', hm', hf⟩ := hf
                rw [hm] at hm'; cases hm'
                exact hf0 hf
              · rw [ih.2 ⟨x, hx, hf⟩ rest hrest]; rfl

/-! ## Turns -/

/-- A turn on the state overflows. -/
def StateFar (ct : CType) (w : U16Str) (look : List Nat → Option Str) (s : PState) : Prop :=
  (∃ x ∈ dictAt ct w look s.pos s.stop, DataFar s.pos x.2) ∨ (Plain ct w look s.pos s.stop ∧ SylFar ct w s)

/-- The dictionary search of one turn. -/
def exceptions32 (ct : CType) (w : U16Str) (dict : Option Dict) (s : PState) : Res (List PState) :=
  match dict with
  | some d => findExceptions32 ct w s d
  | none => pure []

private theorem parseStep_tok (dict : Option Dict) (s : PState) (pool : StatePool) (acc : PronunDAG) (h1 : ¬ s.pos ≥ w.length)
    (h2 : ¬ s.pos ≥ s.stop) : parseStep ct w dict brk (s :: pool, acc) =
      (exceptions ct w dict s >>= fun ex =>
        if ex.length > 0 then pure (.inl (ex.foldl StatePool.add pool, acc)) else findAbbr ct w s >>= fun r =>
          match r with
          | some s' => pure (.inl (StatePool.add pool s', acc))
          | none => parseChar ct w s pool >>= fun q => pure (.inl (q, acc))) := by
  rw [parseStep, if_neg h1, if_neg h2]
  cases dict <;> rfl

private theorem parseStep32_tok (dict : Option Dict) (s : PState) (pool : StatePool) (acc : PronunDAG) (h1 : ¬ s.pos ≥ w.length)
    (h2 : ¬ s.pos ≥ s.stop) : parseStep32 ct w dict brk (s :: pool, acc) =
      (exceptions32 ct w dict s >>= fun ex =>
        if ex.length > 0 then pure (.inl (ex.foldl StatePool.add pool, acc)) else findAbbr ct w s >>= fun r =>
          match r with
          | some s' => pure (.inl (StatePool.add pool s', acc))
          | none => parseChar32 ct w s pool >>= fun q => pure (.inl (q, acc))) := by
  rw [parseStep32, if_neg h1, if_neg h2]
  cases dict <;> rfl

theorem parseStep32_cases (hct : ct.Ok) {dict : Option Dict} (hd : Holds dict look) {s : PState} {pool : StatePool} {acc : PronunDAG}
    (hs : SOK ct w brk s) :
    ((s.pos < s.stop → ¬ StateFar ct w look s) → parseStep32 ct w dict brk (s :: pool, acc) = parseStep ct w dict brk (s :: pool, acc)) ∧
    (s.pos < s.stop → StateFar ct w look s → ∀ r, parseStep ct w dict brk (s :: pool, acc) = .ok r →
      parseStep32 ct w dict brk (s :: pool, acc) = .ub) := by
  by_cases h1 : s.pos ≥ w.length
  · rw [parseStep, parseStep32, if_pos h1, if_pos h1]
    refine ⟨fun _ => rfl, fun hlt => ?_⟩
    have := (hs.stop hlt).le
    omega
  by_cases h2 : s.pos ≥ s.stop
  · rw [parseStep, parseStep32, if_neg h1, if_neg h1, if_pos h2, if_pos h2]
    exact ⟨fun _ => rfl, fun hlt => by omega⟩
  rw [parseStep_tok dict s pool acc h1 h2, parseStep32_tok dict s pool acc h1 h2]
  have hlt : s.pos < s.stop := by omega
  have hst := hs.stop hlt
  -- the search in the dictionary
  have hex : ((∀ x ∈ dictAt ct w look s.pos s.stop, ¬ DataFar s.pos x.2) →
        exceptions32 ct w dict s =
        exceptions ct w dict s) ∧
      ((∃ x ∈ dictAt ct w look s.pos s.stop, DataFar s.pos x.2) → ∀ ex,
        exceptions ct w dict s = .ok ex →
        exceptions32 ct w dict s = .ub) := by
    cases dict with
    | none =>
      refine ⟨fun _ => rfl, fun ⟨x, hx, _⟩ => ?_⟩
      have := (exceptions_ok (ct := ct) (dict := none) hd s hst.le hs.pos []).mp rfl
      generalize dictAt ct w look s.pos s.stop = l at this hx
      cases this; cases hx
    | some d => exact exceptLoop32_cases hst.le (hd w s.pos hs.pos) _
  constructor
  · intro hn
    have hn := hn hlt
    rw [hex.1 fun x hx hf => hn (.inl ⟨x, hx, hf⟩)]
    cases he : exceptions ct w dict s with
    | ok ex =>
      rw [ok_bind, ok_bind]
      by_cases h3 : ex.length > 0
      · rw [if_pos h3, if_pos h3]
      · rw [if_neg h3, if_neg h3]
        have hnil : ex = [] := by cases ex with | nil => rfl | cons => simp at h3
        subst hnil
        have hdict : dictAt ct w look s.pos s.stop = [] := by
          have := (exceptions_ok hd s hst.le hs.pos []).mp he
          generalize dictAt ct w look s.pos s.stop = l at this ⊢
          cases this; rfl
        obtain ⟨r, hr, ha⟩ := (sat_iff _ _).mp (findAbbr_sat hct s hst.lt hst.le)
        rw [hr, ok_bind, ok_bind]
        match r, ha with
        | some s', _ => rfl
        | none, ha =>
          dsimp only
          rw [parseChar32_near fun hf => hn (.inr ⟨⟨hdict, ha⟩, hf⟩)]
    | throw e => rfl
    | ub => rfl
    | diverge => rfl
  · intro _ hf r hr
    obtain ⟨ex, he, hr⟩ := bind_eq_ok.mp hr
    rcases hf with hf | ⟨hpl, hf⟩
    · rw [hex.2 hf ex he]; rfl
    · rw [hex.1 (fun x hx => by rw [hpl.1] at hx; cases hx), he, ok_bind]
      have hnil : ex = [] := by
        have := (exceptions_ok hd s hst.le hs.pos ex).mp he
        rw [hpl.1] at this
        cases this; rfl
      subst hnil
      obtain ⟨r, hr, ha⟩ := (sat_iff _ _).mp (findAbbr_sat hct s hst.lt hst.le)
      rw [if_neg (by simp), hr, ok_bind]
      match r, ha with
      | some s', ⟨_, h, _⟩ => exact absurd ⟨_, h⟩ hpl.2
      | none, ha =>
        dsimp only
        rw [parseChar32_far hf]; rfl

/-! ## Readings -/

theorem stateFar_iff (hct : ct.Ok) {s : PState} {c : Config} (hp : c.pos = s.pos) (hl : c.linked = s.linked)
    (hc : RuleDeriv ct w look brk c) (hs : SOK ct w brk s) (hlt : s.pos < s.stop) :
    StateFar ct w look s ↔ TooFar ct w look brk c := by
  have hst := hs.stop hlt
  have hm : ∀ e, movedEnd s.pos e = SylString.shiftPos s.pos e := by
    intro e
    unfold movedEnd SylString.shiftPos
    rw [Int.mul_comm]
  have hdata : ∀ data, DataFar s.pos data ↔ ∃ strs str x, DataIs data strs ∧ str ∈ strs ∧ x ∈ str ∧ NoInt (movedEnd s.pos x.endPos) := by
    intro data
    unfold DataFar StrFar
    simp only [makeSylStrings_iff, hm]
    exact ⟨fun ⟨a, h1, b, h2, x, h3, h4⟩ => ⟨a, b, x, h1, h2, h3, h4⟩, fun ⟨a, b, x, h1, h2, h3, h4⟩ => ⟨a, h1, b, h2, x, h3, h4⟩⟩
  have hsyl : SylFar ct w s ↔ ∃ o r, Spelled ct w s.stop s.pos s.linked o r ∧ o.pre ≠ none ∧ NoInt (100 * s.pos + r.stop) := by
    unfold SylFar Far
    constructor
    · rintro ⟨c, ems, h1, h2, e, h3, h4, h5⟩
      obtain ⟨o, r, h, h'⟩ := ((satP_iff _ _).mp (grammar_spelled (t := s.stop) (l := s.linked) hct h1) ems h2).1 e h3
      obtain ⟨⟨k1, -, -, -⟩, rfl⟩ := h'
      simp only [ofOnset] at k1
      exact ⟨o, _, h, k1 ▸ h4, h5⟩
    · rintro ⟨o, r, h1, h2, h3⟩
      obtain ⟨c, hc, -⟩ := id h1
      rcases grammar_total hct (c := c) s.linked hst.lt hst.le with ⟨ems, hg⟩ | ⟨-, hld, hne, hlen⟩
      · obtain ⟨e, he, h⟩ := ((satP_iff _ _).mp (grammar_spelled (t := s.stop) (l := s.linked) hct hc) ems hg).2 o r h1
        obtain ⟨⟨k1, -, -, -⟩, rfl⟩ := h
        simp only [ofOnset] at k1
        exact ⟨c, ems, hc, hg, e, he, k1 ▸ h2, h3⟩
      · exfalso
        have hld' := hct.ld c hld
        obtain ⟨c', hc', h1⟩ := h1
        rw [hc] at hc'; cases hc'
        rcases h1 with ⟨h, -⟩ | ⟨h, -⟩ | ⟨-, -, ⟨_, _, _, h, -⟩, -⟩ | ⟨h, -⟩
        · have := hct.cons c h; omega
        · exact hne h
        · have := (List.getElem?_eq_some_iff.mp h).1
          omega
        · omega
  unfold StateFar TooFar
  rw [hp, hl]
  simp only [hdata]
  have hpl : Plain ct w look s.pos s.stop ↔
      (∀ q data, ¬ WordAt ct w look s.pos s.stop q data) ∧ ∀ q, ¬ IsAbbr ct w s.pos s.stop q := by
    rw [noWord_iff hst.le]
    unfold Plain
    simp only [not_exists]
  constructor
  · rintro (⟨x, hx, strs, str, y, h⟩ | ⟨h1, h2⟩)
    · exact ⟨hc, s.stop, tokenTo_iff.mpr hst, .inl ⟨x.1, x.2, strs, str, y, (wordAt_iff hst.le).mpr hx, h⟩⟩
    · obtain ⟨k1, k2⟩ := hpl.mp h1
      exact ⟨hc, s.stop, tokenTo_iff.mpr hst, .inr ⟨k1, k2, hsyl.mp h2⟩⟩
  · rintro ⟨-, t, ht, h⟩
    have := (tokenTo_iff.mp ht).unique hst
    subst this
    rcases h with ⟨q, data, strs, str, y, h1, h2⟩ | ⟨h1, h2, h3⟩
    · exact .inl ⟨(q, data), (wordAt_iff hst.le).mp h1, strs, str, y, h2⟩
    · exact .inr ⟨hpl.mpr ⟨h1, h2⟩, hsyl.mpr h3⟩

theorem parseStep_linv (hct : ct.Ok) {dict : Option Dict} (hd : Holds dict look) {st st' : StatePool × PronunDAG}
    (h : LInv ct w brk look st) (hs : parseStep ct w dict brk st = .ok (.inl st')) : LInv ct w brk look st' := by
  obtain ⟨pool, acc⟩ := st
  cases pool with
  | nil => rw [parseStep] at hs; cases hs
  | cons s pool =>
    rw [parseStep_cons hct] at hs
    by_cases hq : s.pos ≥ w.length
    · rw [if_pos hq] at hs
      cases hs
      exact linv_final hct h hq
    · rw [if_neg hq, bind_eq_ok] at hs
      obtain ⟨ss, hss, hs⟩ := hs
      cases hs
      exact linv_expand hct h (by omega) (expand_expands hct hd (h.sok s (by simp)) (by omega) hss)

/-- Without a reading that leads too far, nothing overflows. -/
theorem parse32_near (hct : ct.Ok) {dict : Option Dict} (hd : Holds dict look) (hn : ¬ ∃ c, TooFar ct w look brk c) :
    parseU16w32 ct w dict brk = parseU16 ct w dict brk := by
  unfold parseU16 parseU16w32
  cases hp : parseInit ct w brk with
  | ok pool =>
    rw [ok_bind, ok_bind]
    symm
    refine whileLoop_congr (I := LInv ct w brk look) ?_ (fun st st' h hs => parseStep_linv hct hd h hs) (parseInit_inv hct hp)
    rintro ⟨pool, acc⟩ hI
    cases pool with
    | nil => rfl
    | cons s pool =>
      refine ((parseStep32_cases hct hd (hI.sok s (by simp))).1 fun hlt hf => hn ?_).symm
      obtain ⟨es, hes⟩ := (hI.snd s (by simp)).some
      exact ⟨_, (stateFar_iff hct (c := ⟨s.pos, s.linked, es⟩) rfl rfl ((ruleDeriv_iff hct).mpr hes) (hI.sok s (by simp)) hlt).mp hf⟩
  | throw e => rfl
  | ub => rfl
  | diverge => rfl

/-- With one, some turn overflows, if the parser does not fail otherwise. -/
theorem parse32_far (hct : ct.Ok) {dict : Option Dict} (hd : Holds dict look) {c : Config} (hc : TooFar ct w look brk c)
    {d : PronunDAG} (hok : parseU16 ct w dict brk = .ok d) : parseU16w32 ct w dict brk = .ub := by
  obtain ⟨hder, t, ht, -⟩ := id hc
  have hst := tokenTo_iff.mp ht
  have hlt : c.pos < w.length := by have := hst.le; have := hst.lt; omega
  have hstop : ∀ {s : PState} {ss}, s.stop ≤ s.pos → Matches s c → Expands ct w brk look s ss →
      ∃ t, ss = [{ s with stop := t }] := by
    intro s ss hle hm hex
    have hpos := hm.pos
    cases hex with
    | gap hq _ _ => exact absurd hst.token (hpos ▸ hq.no _ le_rfl hq.lt)
    | stop _ _ => exact ⟨_, rfl⟩
    | dict hst => have := hst.lt; omega
    | abbr hst => have := hst.lt; omega
    | dot hst => have := hst.lt; omega
    | syl hst => have := hst.lt; omega
  unfold parseU16 at hok
  unfold parseU16w32
  obtain ⟨pool, hpool, hok⟩ := bind_eq_ok.mp hok
  rw [hpool, ok_bind]
  obtain ⟨n, hn, -⟩ := iterLoop_of_whileLoop (by rw [hok]; simp)
  rw [hok] at hn
  have hI := parseInit_inv (look := look) hct hpool
  have hP := pending_start hct hlt hstop ((ruleDeriv_iff hct).mp hder) hpool
  have key : iterLoop (parseStep32 ct w dict brk) n (pool, DAG.empty) = .ub := by
    clear hok hpool
    generalize hst : (pool, (DAG.empty : PronunDAG)) = st at *
    have hP : Pending ct w brk look c st.1 := by rw [← hst]; exact hP
    clear hst
    induction n generalizing st with
    | zero => cases hn
    | succ n ih =>
      obtain ⟨pool, acc⟩ := st
      cases pool with
      | nil => obtain ⟨y, hy, -⟩ := hP; cases hy
      | cons y pool =>
        have hy := hI.sok y (by simp)
        rw [iterLoop] at hn ⊢
        cases hs : parseStep ct w dict brk (y :: pool, acc) with
        | ok r =>
          by_cases hf : y.pos < y.stop ∧ StateFar ct w look y
          · rw [(parseStep32_cases hct hd hy).2 hf.1 hf.2 r hs]
          · rw [(parseStep32_cases hct hd hy).1 (fun h1 h2 => hf ⟨h1, h2⟩), hs]
            rw [hs] at hn
            cases r with
            | inr a => rw [parseStep_cons hct] at hs; split at hs <;> first | cases hs | (obtain ⟨_, _, hs⟩ := bind_eq_ok.mp hs; cases hs)
            | inl st' =>
              have hI' := parseStep_linv hct hd hI hs
              rw [parseStep_cons hct] at hs
              by_cases hp : y.pos ≥ w.length
              · rw [if_pos hp] at hs
                cases hs
                exact ih _ hn hI' (pending_final hct hlt hP hp)
              · rw [if_neg hp] at hs
                obtain ⟨ss, hss, hs⟩ := bind_eq_ok.mp hs
                cases hs
                have hx := expand_expands hct hd hy (by omega) hss
                refine ih _ hn hI' (pending_step hct (fun hm => hstop ?_ hm hx) hP hx)
                by_contra hlt'
                exact hf ⟨by omega, (stateFar_iff hct hm.pos hm.linked hder hy (by omega)).mpr hc⟩
        | throw e => rw [hs] at hn; cases hn
        | ub => rw [hs] at hn; cases hn
        | diverge => rw [hs] at hn; cases hn
  rw [whileLoop_eq (n := n) (by rw [key]; simp), key]

end Thpronun
