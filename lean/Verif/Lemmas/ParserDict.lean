import Verif.Lemmas.ParserTok
import Verif.Lemmas.Raw

/-! # Dictionary search and abbreviations of the parser: helper lemmas -/

namespace Thpronun

namespace Res

/-- The computation ends (possibly by an exception or undefined behaviour); a normal result satisfies `P`. -/
def Term {α} (r : Res α) (P : α → Prop) : Prop :=
  match r with
  | ok a => P a
  | diverge => False
  | _ => True

theorem term_iff {α} {r : Res α} {P : α → Prop} : Term r P ↔ r ≠ diverge ∧ SatP r P := by
  cases r <;> simp [Term]

theorem Term.bind {α β} {r : Res α} {f : α → Res β} {P : α → Prop} {Q : β → Prop}
    (h : Term r P) (hf : ∀ a, P a → Term (f a) Q) : Term (r >>= f) Q := by
  cases r with
  | ok a => exact hf a h
  | throw e => trivial
  | ub => trivial
  | diverge => exact h.elim

theorem Term.mono {α} {r : Res α} {P Q : α → Prop} (h : Term r P) (hpq : ∀ a, P a → Q a) : Term r Q := by
  cases r with
  | ok a => exact hpq a h
  | throw e => trivial
  | ub => trivial
  | diverge => exact h.elim

theorem term_ite {α} {c : Prop} [Decidable c] {a b : Res α} {P : α → Prop} (ha : c → Term a P)
    (hb : ¬ c → Term b P) : Term (if c then a else b) P := by
  by_cases h : c
  · rw [if_pos h]; exact ha h
  · rw [if_neg h]; exact hb h

theorem Sat.term {α} {r : Res α} {P : α → Prop} (h : Sat r P) : Term r P := by
  cases r with
  | ok a => exact h
  | throw e => trivial
  | ub => trivial
  | diverge => exact h.elim

theorem Sat.satP {α} {r : Res α} {P : α → Prop} (h : Sat r P) : SatP r P := by
  cases r with
  | ok a => exact h
  | throw e => trivial
  | ub => trivial
  | diverge => exact h.elim

end Res

open Res Spec

theorem mapRes_ok {α β} {f : α → Res β} {l : List α} {l' : List β} :
    SylString.mapRes f l = .ok l' ↔ List.Forall₂ (fun a b => f a = .ok b) l l' := by
  induction l generalizing l' with
  | nil => simp [SylString.mapRes, eq_comm]
  | cons a l ih =>
    simp only [SylString.mapRes, bind_eq_ok, pure_eq, Res.ok.injEq, List.forall₂_cons_left_iff, ih]
    constructor
    · rintro ⟨b, hb, bs, hbs, rfl⟩; exact ⟨b, bs, hb, hbs, rfl⟩
    · rintro ⟨b, bs, hb, hbs, rfl⟩; exact ⟨b, hb, bs, hbs, rfl⟩

theorem mapRes_term {α β} {f : α → Res β} (hf : ∀ a, (f a).Term fun _ => True) (l : List α) :
    (SylString.mapRes f l).Term fun _ => True := by
  induction l with
  | nil => trivial
  | cons a l ih => exact (hf a).bind fun b _ => ih.bind fun _ _ => trivial

theorem mapAt_term {κ ν} [DecidableEq κ] (tbl : List (κ × ν)) (k : κ) : (mapAt tbl k).Term fun _ => True := by
  rcases mapAt_cases tbl k with ⟨v, h⟩ | h <;> rw [h] <;> trivial

theorem strIdx_term (s : Str) (i : Nat) : (strIdx s i).Term fun _ => True := by
  unfold strIdx
  cases h : s[i]? with
  | some b => simp [Term]
  | none =>
    by_cases h' : i = s.length <;> simp [Term, h']

theorem sylOfDesc_term (t : Str) (d : Int) : (sylOfDesc t d).Term fun _ => True := by
  refine (strIdx_term _ _).bind fun _ _ => (mapAt_term _ _).bind fun _ _ => (strIdx_term _ _).bind fun _ _ =>
    (strIdx_term _ _).bind fun _ _ => (strIdx_term _ _).bind fun _ _ => (mapAt_term _ _).bind fun _ _ =>
    (strIdx_term _ _).bind fun _ _ => (mapAt_term _ _).bind fun _ _ => ?_
  split
  · rcases stoi_cases (t.drop 6) with ⟨v, h⟩ | ⟨e, h⟩ <;> rw [h] <;> trivial
  · trivial

theorem makeSylStrings_term (t : Str) : (SylString.makeSylStrings t).Term fun _ => True :=
  mapRes_term (fun _ => mapRes_term (fun _ => sylOfDesc_term _ _) _) _

theorem cString_term : ∀ s : Str, (Dict.cString s).Term fun _ => True
  | [] => trivial
  | b :: bs => by
    rw [Dict.cString]
    split
    · trivial
    · exact (cString_term bs).bind fun _ _ => trivial

theorem match_getData_term (m : Match) : m.getData.Term fun _ => True := by
  unfold Match.getData
  split
  · split
    · trivial
    · split
      · trivial
      · unfold Dict.getData
        split
        · trivial
        · split
          · trivial
          · exact cString_term _
  · trivial

theorem findLoop_pos (t : Trie) : ∀ (cs walked : U16Str) (pos : Nat), (Match.findLoop t pos walked cs).2.2 = true →
    pos < (Match.findLoop t pos walked cs).1 ∧ (Match.findLoop t pos walked cs).1 ≤ pos + cs.length
  | [], walked, pos, h => by simp [Match.findLoop] at h
  | c :: cs, walked, pos, h => by
    rw [Match.findLoop] at h ⊢
    by_cases h1 : t.hasPrefix (walked ++ [c]) = true
    · simp only [h1, if_true] at h ⊢
      by_cases h2 : (t.get (walked ++ [c])).isSome = true
      · simp only [h2, if_true, List.length_cons] at h ⊢
        omega
      · simp only [h2] at h ⊢
        have := findLoop_pos t cs _ (pos + 1) h
        simp only [List.length_cons]
        exact ⟨by have := this.1; simpa using (by omega : pos < (Match.findLoop t (pos + 1) (walked ++ [c]) cs).1),
          by have := this.2; simpa using (by omega : (Match.findLoop t (pos + 1) (walked ++ [c]) cs).1 ≤ pos + (cs.length + 1))⟩
    · simp [h1] at h

theorem findNext_pos (m : Match) (h : m.findNext.2 = true) (hl : m.curPos ≤ m.word.length) :
    m.curPos < m.findNext.1.curPos ∧ m.findNext.1.curPos ≤ m.word.length ∧ m.findNext.1.word = m.word := by
  unfold Match.findNext at h ⊢
  cases ht : m.dict.mTrie with
  | none => simp [ht] at h
  | some t =>
    cases hw : m.walked with
    | none => simp [ht, hw] at h
    | some wk =>
      simp only [ht, hw] at h ⊢
      have := findLoop_pos t _ _ _ h
      rw [List.length_drop] at this
      exact ⟨this.1, by have := this.2; omega, trivial⟩

section
variable {ct : CType} {w : U16Str}

/-- The test of parser.cxx:1709-1713. -/
def skipTest (ct : CType) (w : U16Str) (s : PState) (m : Match) : Res Bool :=
  if m.getCurPos < s.stop then do pure (!isSylStart ct (← strAt w m.getCurPos)) else pure false

theorem exceptLoop_succ (s : PState) (fuel : Nat) (m m' : Match) (h : m.findNext = (m', true)) :
    exceptLoop ct w s (fuel + 1) m = if m'.getCurPos > s.stop then exceptLoop ct w s fuel m' else
      skipTest ct w s m' >>= fun skip => if skip then exceptLoop ct w s fuel m' else
        (m'.getData >>= fun t => SylString.makeSylStrings t >>= fun strs => exceptLoop ct w s fuel m' >>= fun rest =>
        pure (⟨m'.getCurPos, s.stop, exceptDag s strs, false⟩ :: rest)) := by
  rw [exceptLoop, h]
  simp only
  by_cases h1 : m'.getCurPos > s.stop
  · rw [if_pos h1, if_pos h1]
  · rw [if_neg h1, if_neg h1]
    unfold skipTest
    by_cases h2 : m'.getCurPos < s.stop
    · rw [if_pos h2, if_pos h2, bind_assoc']
    · rw [if_neg h2, if_neg h2]

/-- Whatever the dictionary, the search ends and only goes forward. -/
theorem exceptLoop_term (s : PState) : ∀ (fuel : Nat) (m : Match), m.curPos ≤ m.word.length →
    m.word.length < fuel + m.curPos →
    (exceptLoop ct w s fuel m).Term fun ex => ∀ s' ∈ ex, s'.stop = s.stop ∧ m.curPos < s'.pos ∧ s'.pos ≤ s.stop ∧ ∃ strs, s'.dag = exceptDag s strs
  | 0, m, hl, hf => by omega
  | fuel + 1, m, hl, hf => by
    cases hb : m.findNext with
    | mk m' b =>
    cases b with
    | false =>
      rw [exceptLoop, hb]
      exact fun s' h => by cases h
    | true =>
      rw [exceptLoop_succ s fuel m m' hb]
      have := findNext_pos m (by rw [hb]) hl
      rw [hb] at this
      obtain ⟨h1, h2, h3⟩ := this
      simp only at h1 h2 h3
      have ih := exceptLoop_term s fuel m' (by rw [h3]; exact h2) (by rw [h3]; omega)
      have ih' : (exceptLoop ct w s fuel m').Term
          fun ex => ∀ s' ∈ ex, s'.stop = s.stop ∧ m.curPos < s'.pos ∧ s'.pos ≤ s.stop ∧ ∃ strs, s'.dag = exceptDag s strs :=
        ih.mono fun ex h s' hs => ⟨(h s' hs).1, by have := (h s' hs).2.1; omega, (h s' hs).2.2⟩
      simp only [Match.getCurPos]
      refine term_ite (fun _ => ?_) (fun hle => ?_)
      · exact ih'
      · have hskip : (skipTest ct w s m').Term fun _ => True := by
          unfold skipTest
          split
          · refine Term.bind (P := fun _ => True) ?_ fun _ _ => trivial
            unfold strAt; split <;> trivial
          · trivial
        refine hskip.bind fun b _ => term_ite (fun _ => ?_) (fun _ => ?_)
        · exact ih'
        · refine (match_getData_term _).bind fun t _ => (makeSylStrings_term t).bind fun strs _ =>
            ih'.bind fun ex hex => ?_
          intro s' hs
          rcases List.mem_cons.mp hs with rfl | hs
          · exact ⟨rfl, h1, Nat.le_of_not_lt hle, strs, rfl⟩
          · exact hex s' hs

/-- The dictionary words that are accepted. -/
def accepted (ct : CType) (w : U16Str) (t : Nat) (m : Nat × Str) : Bool :=
  decide (m.1 ≤ t) && (decide (m.1 = t) || (w[m.1]?).any (isSylStart ct))

/-- The state that results from one dictionary word. -/
def DictState (s : PState) (m : Nat × Str) (s' : PState) : Prop :=
  ∃ strs, SylString.makeSylStrings m.2 = .ok strs ∧ s' = ⟨m.1, s.stop, exceptDag s strs, false⟩

theorem exceptLoop_reports (s : PState) (hs : s.stop ≤ w.length) {m : Match} {l : List (Nat × Str)}
    (h : Reports m l) : ∀ {fuel : Nat}, l.length < fuel → ∀ ex,
    (exceptLoop ct w s fuel m = .ok ex ↔ List.Forall₂ (DictState s) (l.filter (accepted ct w s.stop)) ex) := by
  induction h with
  | stop m h h' =>
    intro fuel hf ex
    obtain ⟨fuel, rfl⟩ : ∃ n, fuel = n + 1 := ⟨fuel - 1, by simp at hf; omega⟩
    rw [exceptLoop]
    cases hb : m.findNext with
    | mk m' b =>
    rw [hb] at h
    simp only at h
    subst h
    simp [eq_comm]
  | found m d l h hd r ih =>
    intro fuel hf ex
    obtain ⟨fuel, rfl⟩ : ∃ n, fuel = n + 1 := ⟨fuel - 1, by simp at hf; omega⟩
    cases hb : m.findNext with
    | mk m' b =>
    rw [hb] at h hd r ih
    simp only at h hd r ih
    subst h
    rw [exceptLoop_succ s fuel m m' hb]
    have ih := fun ex => @ih fuel (by simpa using hf) ex
    by_cases h1 : m'.getCurPos > s.stop
    · rw [if_pos h1, List.filter_cons_of_neg (by simp [accepted]; omega)]
      exact ih ex
    · rw [if_neg h1]
      have hacc : ∀ b : Bool, skipTest ct w s m' = .ok b →
          accepted ct w s.stop (m'.getCurPos, d) = !b := by
        intro b hb
        unfold skipTest at hb
        by_cases hlt : m'.getCurPos < s.stop
        · rw [if_pos hlt, strAt_eq (List.getElem?_eq_getElem (by omega : m'.getCurPos < w.length))] at hb
          simp only [ok_bind, pure_eq, Res.ok.injEq] at hb
          subst hb
          simp only [accepted]
          rw [List.getElem?_eq_getElem (by omega : m'.getCurPos < w.length)]
          have h2 : m'.getCurPos ≤ s.stop := by omega
          have h3 : ¬ m'.getCurPos = s.stop := by omega
          simp [h2, h3]
        · rw [if_neg hlt] at hb
          simp only [pure_eq, Res.ok.injEq] at hb
          subst hb
          have h3 : m'.getCurPos = s.stop := by omega
          simp [accepted, h3]
      have hok : ∃ b : Bool, skipTest ct w s m' = .ok b := by
        unfold skipTest
        by_cases hlt : m'.getCurPos < s.stop
        · rw [if_pos hlt, strAt_eq (List.getElem?_eq_getElem (by omega : m'.getCurPos < w.length))]
          exact ⟨_, rfl⟩
        · rw [if_neg hlt]; exact ⟨_, rfl⟩
      obtain ⟨b, hb⟩ := hok
      have ha := hacc b hb
      rw [hb, ok_bind]
      cases b with
      | true =>
        rw [if_pos rfl, List.filter_cons_of_neg (by simp [ha])]
        exact ih ex
      | false =>
        rw [if_neg (by simp), List.filter_cons_of_pos (by simpa using ha), hd, ok_bind]
        simp only [bind_eq_ok, List.forall₂_cons_left_iff, pure_eq, Res.ok.injEq]
        constructor
        · rintro ⟨strs, h1, ex', h2, rfl⟩
          exact ⟨_, _, ⟨strs, h1, rfl⟩, (ih _).mp h2, rfl⟩
        · rintro ⟨s', ex', ⟨strs, h1, rfl⟩, h2, rfl⟩
          exact ⟨strs, h1, ex', (ih _).mpr h2, rfl⟩

theorem prefixMatches_length (look) (pos : Nat) : (prefixMatches look w pos).length ≤ w.length := by
  unfold prefixMatches
  refine (List.length_filterMap_le _ _).trans ?_
  rw [List.length_range']; omega

/-- The exceptions of a state are the accepted words. -/
theorem exceptions_ok {dict : Option Dict} {look} (hd : Holds dict look) (s : PState) (hs : s.stop ≤ w.length)
    (hp : s.pos ≤ w.length) (ex : List PState) :
    (match dict with
      | some d => findExceptions ct w s d
      | none => pure []) = .ok ex ↔ List.Forall₂ (DictState s) (dictAt ct w look s.pos s.stop) ex := by
  cases dict with
  | none =>
    have : dictAt ct w look s.pos s.stop = [] := by
      have h0 : prefixMatches look w s.pos = [] := by
        unfold prefixMatches
        rw [List.filterMap_eq_nil_iff]
        intro n _
        rw [hd]; rfl
      rw [dictAt, h0]; rfl
    rw [this]
    simp [eq_comm]
  | some d =>
    refine exceptLoop_reports s hs (hd w s.pos hp) ?_ ex
    have := prefixMatches_length (w := w) look s.pos
    omega

theorem mem_dictAt {look} {p t : Nat} {m : Nat × Str} (h : m ∈ dictAt ct w look p t) :
    p < m.1 ∧ m.1 ≤ t ∧ m.1 ≤ w.length ∧ look (piece w p m.1) = some m.2 ∧
      (m.1 < t → ∃ c, w[m.1]? = some c ∧ isSylStart ct c = true) := by
  obtain ⟨h1, h2⟩ := List.mem_filter.mp h
  unfold prefixMatches at h1
  obtain ⟨n, hn, hl⟩ := List.mem_filterMap.mp h1
  rw [List.mem_range'_1] at hn
  obtain ⟨s, hs, rfl⟩ := Option.map_eq_some_iff.mp hl
  simp only [Bool.and_eq_true, decide_eq_true_eq, Bool.or_eq_true] at h2
  refine ⟨by simp only; omega, h2.1, by simp only; omega, ?_, ?_⟩
  · rw [piece, show p + n - p = n by omega]; exact hs
  · intro hlt
    rcases h2.2 with h | h
    · simp only at hlt h; omega
    · exact Option.any_eq_true _ _ |>.mp h

end
end Thpronun
