import Verif.Lemmas.SylOrder
import Verif.Lemmas.Raw
import Verif.Model.Output

/-! # Properties C03–C09: syllables and syllable strings -/

namespace Thpronun
open Spec

/-- A sample valid syllable used in the non-vacuity checks. -/
private def kra : Syl := ⟨.KA, SC.RA, VW.AA, .KOP, .EK, [], 4⟩

/-! ## C03: strict total order -/

/-- No syllable is less than itself. -/
theorem C03_irrefl (a : Syl) : Syl.lt a a = false := by
  rw [← Bool.not_eq_true, Syl.lt_iff]; exact lt_irrefl _

theorem C03_trans (a b c : Syl) (h1 : Syl.lt a b = true) (h2 : Syl.lt b c = true) :
    Syl.lt a c = true := by
  rw [Syl.lt_iff] at *; exact lt_trans h1 h2

/-- The four comparison operators agree with each other. -/
theorem C03_operators (a b : Syl) :
    Syl.gt a b = Syl.lt b a ∧ Syl.le a b = !Syl.lt b a ∧ Syl.ge a b = !Syl.lt a b ∧
    Syl.ne a b = !Syl.eq a b := by
  simp [Syl.le, Syl.ge, Syl.ne, Syl.gt_eq]

/-- Two syllables neither of which is less than the other have the same end position, and are
literals of the same text or non-literals with the same five components; and conversely. -/
theorem C03_incomparable_iff (a b : Syl) :
    (Syl.lt a b = false ∧ Syl.lt b a = false) ↔
      a.endPos = b.endPos ∧ a.literal = b.literal ∧
      (a.literal = [] → a.iCons1 = b.iCons1 ∧ a.iCons2 = b.iCons2 ∧ a.vowel = b.vowel ∧
        a.eCons = b.eCons ∧ a.tone = b.tone) := by
  have h : (Syl.lt a b = false ∧ Syl.lt b a = false) ↔ a.key = b.key := by
    rw [← Bool.not_eq_true, ← Bool.not_eq_true, Syl.lt_iff, Syl.lt_iff]
    constructor
    · rintro ⟨h1, h2⟩; exact le_antisymm (not_lt.mp h2) (not_lt.mp h1)
    · intro h; rw [h]; exact ⟨lt_irrefl _, lt_irrefl _⟩
  rw [h, Syl.key_eq_iff]
  unfold Syl.eq Syl.isLiteral
  by_cases ha : a.literal = [] <;> by_cases hb : b.literal = [] <;>
    simp [ha, hb] <;> tauto

/-- Negation of being incomparable is transitive the other way: `<` is a strict weak order, so
`std::set`, `std::sort` etc. may use it. -/
theorem C03_weak (a b c : Syl) (h : Syl.lt a c = true) : Syl.lt a b = true ∨ Syl.lt b c = true := by
  rw [Syl.lt_iff] at *
  rw [Syl.lt_iff]
  rcases lt_or_ge a.key b.key with h1 | h1
  · exact .inl h1
  · exact .inr (lt_of_le_of_lt h1 h)

example : Syl.lt (Syl.lit 3 u!"abc") kra = true ∧ Syl.lt kra { kra with endPos := 5 } = true := by
  decide

/-! ## C04: equality -/

theorem C04_equivalence :
    (∀ a : Syl, Syl.eq a a = true) ∧ (∀ a b : Syl, Syl.eq a b = true → Syl.eq b a = true) ∧
    (∀ a b c : Syl, Syl.eq a b = true → Syl.eq b c = true → Syl.eq a c = true) :=
  ⟨Syl.eq_refl, fun _ _ => Syl.eq_symm, fun _ _ _ => Syl.eq_trans⟩

/-- Equality does not depend on the end positions. -/
theorem C04_ignores_endPos (a b : Syl) (p q : Int) :
    Syl.eq (a.setEndPos p) (b.setEndPos q) = Syl.eq a b := rfl

/-- What equality means: same literal text, or same five components of two non-literals. -/
theorem C04_eq_iff (a b : Syl) :
    Syl.eq a b = true ↔ a.literal = b.literal ∧
      (a.literal = [] → a.iCons1 = b.iCons1 ∧ a.iCons2 = b.iCons2 ∧ a.vowel = b.vowel ∧
        a.eCons = b.eCons ∧ a.tone = b.tone) := by
  unfold Syl.eq Syl.isLiteral
  by_cases ha : a.literal = [] <;> by_cases hb : b.literal = [] <;>
    simp [ha, hb] <;> tauto

/-- At the same end position exactly one of `a < b`, `a == b`, `a > b` holds. -/
theorem C04_trichotomy (a b : Syl) (h : a.endPos = b.endPos) :
    (Syl.lt a b = true ∧ Syl.eq a b = false ∧ Syl.gt a b = false) ∨
    (Syl.lt a b = false ∧ Syl.eq a b = true ∧ Syl.gt a b = false) ∨
    (Syl.lt a b = false ∧ Syl.eq a b = false ∧ Syl.gt a b = true) := by
  have he : Syl.eq a b = true ↔ a.key = b.key := by simp [Syl.key_eq_iff, h]
  simp only [← Bool.not_eq_true, Syl.gt_eq, Syl.lt_iff, he]
  rcases lt_trichotomy a.key b.key with h1 | h1 | h1
  · exact .inl ⟨h1, h1.ne, h1.asymm⟩
  · exact .inr (.inl ⟨by rw [h1]; exact lt_irrefl _, h1, by rw [h1]; exact lt_irrefl _⟩)
  · exact .inr (.inr ⟨h1.asymm, h1.ne', h1⟩)

/-- Without the assumption on end positions equality and order do conflict: equal syllables may be
strictly ordered. -/
theorem C04_endPos_needed : ∃ a b : Syl, Syl.eq a b = true ∧ Syl.lt a b = true :=
  ⟨kra, { kra with endPos := 5 }, by decide⟩

/-! ## C05: strings compare lexicographically -/

/-- `a < b` iff after pairwise indistinguishable prefixes either `a` ends and `b` does not, or the
next syllable of `a` is less than that of `b`. -/
theorem C05_lex (a b : SylString) :
    SylString.lt a b = true ↔
      ∃ p q r s, a = p ++ r ∧ b = q ++ s ∧
        List.Forall₂ (fun x y => Syl.lt x y = false ∧ Syl.lt y x = false) p q ∧
        ((r = [] ∧ s ≠ []) ∨ ∃ x r' y s', r = x :: r' ∧ s = y :: s' ∧ Syl.lt x y = true) := by
  constructor
  · intro h
    induction a generalizing b with
    | nil =>
      cases b with
      | nil => simp [SylString.lt] at h
      | cons y s => exact ⟨[], [], [], y :: s, rfl, rfl, .nil, .inl ⟨rfl, by simp⟩⟩
    | cons x r ih =>
      cases b with
      | nil => simp [SylString.lt] at h
      | cons y s =>
        rw [SylString.lt, Syl.gt_eq] at h
        by_cases h1 : Syl.lt x y = true
        · exact ⟨[], [], x :: r, y :: s, rfl, rfl, .nil, .inr ⟨x, r, y, s, rfl, rfl, h1⟩⟩
        · by_cases h2 : Syl.lt y x = true
          · simp [h1, h2] at h
          · simp only [h1, h2] at h
            obtain ⟨p, q, r', s', rfl, rfl, hf, hor⟩ := ih _ h
            exact ⟨x :: p, y :: q, r', s', rfl, rfl,
              .cons ⟨Bool.eq_false_iff.mpr h1, Bool.eq_false_iff.mpr h2⟩ hf, hor⟩
  · rintro ⟨p, q, r, s, rfl, rfl, hf, hor⟩
    induction hf with
    | nil =>
      rcases hor with ⟨rfl, hs⟩ | ⟨x, r', y, s', rfl, rfl, h⟩
      · cases s with
        | nil => exact absurd rfl hs
        | cons => rfl
      · simp [SylString.lt, h]
    | cons h _ ih =>
      simp only [List.cons_append, SylString.lt, Syl.gt_eq, h.1, h.2]
      exact ih

theorem C05_order :
    (∀ a : SylString, SylString.lt a a = false) ∧
    (∀ a b c : SylString, SylString.lt a b = true → SylString.lt b c = true →
      SylString.lt a c = true) ∧
    (∀ a b : SylString, SylString.gt a b = SylString.lt b a) ∧
    (∀ a b : SylString, SylString.le a b = !SylString.lt b a) ∧
    (∀ a b : SylString, SylString.ge a b = !SylString.lt a b) := by
  refine ⟨fun a => ?_, fun a b c h1 h2 => ?_, SylString.gt_eq, fun a b => ?_, fun a b => ?_⟩
  · rw [← Bool.not_eq_true, SylString.lt_iff]; exact lt_irrefl _
  · rw [SylString.lt_iff] at *; exact lt_trans h1 h2
  · rw [SylString.le, SylString.gt_eq]
  · rfl

/-- Total: of two strings one is less, or they are indistinguishable position by position. -/
theorem C05_total (a b : SylString) :
    SylString.lt a b = true ∨ SylString.lt b a = true ∨
      List.Forall₂ (fun x y => Syl.lt x y = false ∧ Syl.lt y x = false) a b := by
  rw [SylString.lt_iff, SylString.lt_iff]
  rcases lt_trichotomy (a.map Syl.key) (b.map Syl.key) with h | h | h
  · exact .inl h
  · refine .inr (.inr ?_)
    induction a generalizing b with
    | nil =>
      cases b with
      | nil => exact .nil
      | cons => simp at h
    | cons x xs ih =>
      cases b with
      | nil => simp at h
      | cons y ys =>
        simp only [List.map_cons, List.cons.injEq] at h
        refine .cons ?_ (ih _ h.2)
        rw [← Bool.not_eq_true, ← Bool.not_eq_true, Syl.lt_iff, Syl.lt_iff, h.1]
        exact ⟨lt_irrefl _, lt_irrefl _⟩
  · exact .inr (.inl h)

/-- `==` on strings: equal length and equal syllables position by position. -/
theorem C05_eq (a b : SylString) :
    SylString.eq a b = true ↔
      a.length = b.length ∧ ∀ i (h : i < a.length) (h' : i < b.length), Syl.eq a[i] b[i] = true := by
  rw [SylString.eq_iff, List.forall₂_iff_get]
  rfl

example : SylString.lt [kra] [kra, kra] = true ∧ SylString.lt [kra, Syl.lit 9 u!"z"] [kra, kra] = true := by
  decide

/-! ## C06, C07: raw notation round-trips -/

/-- Printing a valid syllable and reading the text back gives the same syllable with the same end
position, whatever default position the reader is given. -/
theorem C06_roundtrip (s : Syl) (h : ValidSyl s) (hi : IsInt s.endPos) (dflt : Int) :
    ∃ text, rawSyl s = .ok text ∧ sylOfDesc text dflt = .ok s :=
  ⟨_, rawSyl_valid s h, sylOfDesc_raw s h hi dflt⟩

example : ValidSyl { kra with endPos := -407 } ∧ IsInt (-407) := by decide

/-- The text of a valid syllable: five code characters, `@`, the end position in decimal. -/
theorem C06_format (s : Syl) (h : ValidSyl s) (hi : IsInt s.endPos) :
    ∃ c0 c1 c2 c3 c4 n, rawSyl s = .ok (c0 :: c1 :: c2 :: c3 :: c4 :: ch!"@" :: n) ∧
      IsNumberText n :=
  ⟨_, _, _, _, _, _, rawSyl_valid s h, (stoi_ok_iff _).mp ⟨_, stoi_toString _ hi⟩⟩

/-- The `-w` text of a non-empty string of valid syllables reads back as the same string. -/
theorem C07_string (l : SylString) (h : ValidStr l) :
    ∃ text, delimStr rawSyl ch!"," l = .ok text ∧ SylString.ofDesc text = .ok l ∧
      ch!";" ∉ text := by
  obtain ⟨hne, hv⟩ := h
  obtain ⟨ts, hf, hd⟩ := delimStr_raw l (fun s hs => (hv s hs).1)
  have hts : ∀ t ∈ ts, ∃ s ∈ l, rawSyl s = .ok t := fun t ht => by
    obtain ⟨i, hi, rfl⟩ := List.mem_iff_getElem.mp ht
    exact ⟨l[i]'(hf.length_eq ▸ hi), List.getElem_mem _, (List.forall₂_iff_get.mp hf).2 i _ hi⟩
  have hsep : ∀ sep, sep = ch!"," ∨ sep = ch!";" → ∀ t ∈ ts, sep ∉ t := fun sep hs t ht => by
    obtain ⟨s, hs', hr⟩ := hts t ht
    rw [rawSyl_valid s (hv s hs').1] at hr
    cases hr
    exact raw_no_sep s (hv s hs').1 sep hs
  have hne' : ts ≠ [] := by
    rintro rfl
    exact hne (List.forall₂_nil_right_iff.mp hf)
  refine ⟨_, hd, ?_, ?_⟩
  · rw [SylString.ofDesc, SylString.splitOn_joinWith _ _ hne' (hsep _ (.inl rfl))]
    apply mapRes_forall₂
    have : ∀ (l : SylString) (ts : List Str), (∀ s ∈ l, ValidSyl s ∧ IsInt s.endPos) →
        List.Forall₂ (fun s t => rawSyl s = .ok t) l ts →
        List.Forall₂ (fun t s => sylOfDesc t = .ok s) ts l := by
      intro l ts hv hf
      induction hf with
      | nil => exact .nil
      | cons hr _ ih =>
        refine .cons ?_ (ih (fun s hs => hv s (by simp [hs])))
        have h1 := hv _ (List.mem_cons_self ..)
        rw [rawSyl_valid _ h1.1] at hr
        cases hr
        exact sylOfDesc_raw _ h1.1 h1.2 _
    exact this l ts hv hf
  · have : ∀ ts : List Str, (∀ t ∈ ts, ch!";" ∉ t) → ch!";" ∉ joinWith ch!"," ts := by
      intro ts
      induction ts with
      | nil => simp [joinWith]
      | cons a as ih =>
        cases as with
        | nil => simp [joinWith]
        | cons b bs =>
          intro h
          rw [joinWith, List.mem_append, List.mem_cons]
          rintro (h' | h' | h')
          · exact h a (by simp) h'
          · exact absurd h' (by decide)
          · exact ih (fun t ht => h t (by simp [ht])) h'
    exact this ts (hsep _ (.inr rfl))

/-- Alternatives joined by `;` read back, as a dictionary entry, as the same alternatives. -/
theorem C07_alternatives (ls : List SylString) (hne : ls ≠ []) (h : ∀ l ∈ ls, ValidStr l) :
    ∃ texts, List.Forall₂ (fun l t => delimStr rawSyl ch!"," l = .ok t) ls texts ∧
      SylString.makeSylStrings (joinWith ch!";" texts) = .ok ls := by
  have : ∀ ls : List SylString, (∀ l ∈ ls, ValidStr l) → ∃ texts : List Str,
      List.Forall₂ (fun l t => delimStr rawSyl ch!"," l = .ok t) ls texts ∧
      List.Forall₂ (fun t l => SylString.ofDesc t = .ok l) texts ls ∧ ∀ t ∈ texts, ch!";" ∉ t := by
    intro ls
    induction ls with
    | nil => intro _; exact ⟨[], .nil, .nil, by simp⟩
    | cons l ls ih =>
      intro h
      obtain ⟨t, h1, h2, h3⟩ := C07_string l (h l (by simp))
      obtain ⟨ts, g1, g2, g3⟩ := ih (fun x hx => h x (by simp [hx]))
      refine ⟨t :: ts, .cons h1 g1, .cons h2 g2, ?_⟩
      intro x hx
      rcases List.mem_cons.mp hx with rfl | hx
      · exact h3
      · exact g3 x hx
  obtain ⟨ts, h1, h2, h3⟩ := this ls h
  refine ⟨ts, h1, ?_⟩
  rw [SylString.makeSylStrings, SylString.splitOn_joinWith _ _ ?_ h3]
  · exact mapRes_forall₂ h2
  · rintro rfl
    exact hne (List.forall₂_nil_right_iff.mp h1)

example : ValidStr [kra, { kra with endPos := -407 }, { kra with tone := .THO }] := by
  refine ⟨by simp, ?_⟩
  decide

/-! ## C08: syllable descriptions -/

/-- Five or more characters: the result is a syllable or a standard exception. -/
theorem C08_no_ub (desc : Str) (h : 5 ≤ desc.length) (dflt : Int) :
    (∃ s, sylOfDesc desc dflt = .ok s) ∨ ∃ e, sylOfDesc desc dflt = .throw e := by
  match desc, h with
  | c0 :: c1 :: c2 :: c3 :: c4 :: r, _ =>
    simp only [sylOfDesc, strIdx, initConsCodeToSound, endConsCodeToClass, toneCodeToTone,
      List.getElem?_cons_zero, List.getElem?_cons_succ, Res.ok_bind]
    rcases mapAt_cases initConsCodeToSoundTbl c0 with ⟨v, h⟩ | h <;> rw [h] <;> simp only [Res.ok_bind, Res.throw_bind]
    · rcases mapAt_cases endConsCodeToClassTbl c3 with ⟨v, h⟩ | h <;> rw [h] <;> simp only [Res.ok_bind, Res.throw_bind]
      · rcases mapAt_cases toneCodeToToneTbl c4 with ⟨v, h⟩ | h <;> rw [h] <;> simp only [Res.ok_bind, Res.throw_bind]
        · split
          · rcases stoi_cases (List.drop 6 (c0 :: c1 :: c2 :: c3 :: c4 :: r)) with ⟨v, h⟩ | ⟨e, h⟩ <;>
              rw [h] <;> simp
          · exact .inl ⟨_, rfl⟩
        · exact .inr ⟨_, rfl⟩
      · exact .inr ⟨_, rfl⟩
    · exact .inr ⟨_, rfl⟩

/-- A syllable is accepted exactly for good descriptions. -/
theorem C08_accept_iff (desc : Str) (dflt : Int) :
    (∃ s, sylOfDesc desc dflt = .ok s) ↔ GoodDesc desc := by
  have hI : ∀ c, c ∈ b!"*kcgjJydtTnbpPfmrlwsh?" ↔ ∃ v, mapAt initConsCodeToSoundTbl c = .ok v :=
    fun c => (mapAt_ok_iff initConsCodeToSoundTbl c).symm
  have hE : ∀ c, c ∈ b!"_ktpgnmyw" ↔ ∃ v, mapAt endConsCodeToClassTbl c = .ok v :=
    fun c => (mapAt_ok_iff endConsCodeToClassTbl c).symm
  have hT : ∀ c, c ∈ b!"*01234" ↔ ∃ v, mapAt toneCodeToToneTbl c = .ok v :=
    fun c => (mapAt_ok_iff toneCodeToToneTbl c).symm
  have hE0 : mapAt endConsCodeToClassTbl 0 = .throw .outOfRange := rfl
  have hT0 : mapAt toneCodeToToneTbl 0 = .throw .outOfRange := rfl
  have hI0 : mapAt initConsCodeToSoundTbl 0 = .throw .outOfRange := rfl
  unfold GoodDesc
  match desc with
  | [] => simp [sylOfDesc, strIdx, initConsCodeToSound, hI0]
  | [a] =>
    rcases mapAt_cases initConsCodeToSoundTbl a with ⟨v, h⟩ | h <;>
      simp [sylOfDesc, strIdx, initConsCodeToSound, h]
  | [a, b] =>
    rcases mapAt_cases initConsCodeToSoundTbl a with ⟨v, h⟩ | h <;>
      simp [sylOfDesc, strIdx, initConsCodeToSound, h]
  | [a, b, c] =>
    rcases mapAt_cases initConsCodeToSoundTbl a with ⟨v, h⟩ | h <;>
      simp [sylOfDesc, strIdx, initConsCodeToSound, endConsCodeToClass, h, hE0]
  | [a, b, c, d] =>
    rcases mapAt_cases initConsCodeToSoundTbl a with ⟨v, h⟩ | h <;>
    rcases mapAt_cases endConsCodeToClassTbl d with ⟨v, h'⟩ | h' <;>
      simp [sylOfDesc, strIdx, initConsCodeToSound, endConsCodeToClass, toneCodeToTone, h, h', hT0]
  | c0 :: c1 :: c2 :: c3 :: c4 :: r =>
    simp only [sylOfDesc, strIdx, initConsCodeToSound, endConsCodeToClass, toneCodeToTone,
      List.getElem?_cons_zero, List.getElem?_cons_succ, Res.ok_bind, Option.mem_some_iff,
      exists_eq_left', hI, hE, hT]
    constructor
    · rintro ⟨s, hs⟩
      obtain ⟨i, hi, hs⟩ := Res.bind_eq_ok.mp hs
      obtain ⟨e, he, hs⟩ := Res.bind_eq_ok.mp hs
      obtain ⟨t, ht, hs⟩ := Res.bind_eq_ok.mp hs
      refine ⟨by simp, ⟨i, hi⟩, ⟨e, he⟩, ⟨t, ht⟩, fun h1 h2 => ?_⟩
      rw [if_pos ⟨h1, h2⟩] at hs
      obtain ⟨n, hn, _⟩ := Res.bind_eq_ok.mp hs
      exact (stoi_ok_iff _).mp ⟨n, hn⟩
    · rintro ⟨-, ⟨i, hi⟩, ⟨e, he⟩, ⟨t, ht⟩, hn⟩
      rw [hi, he, ht]
      simp only [Res.ok_bind]
      by_cases hc : (c0 :: c1 :: c2 :: c3 :: c4 :: r).length > 6 ∧ r[0]? = some ch!"@"
      · rw [if_pos hc]
        obtain ⟨n, hn⟩ := (stoi_ok_iff _).mpr (hn hc.1 hc.2)
        rw [hn]
        exact ⟨_, rfl⟩
      · rw [if_neg hc]
        exact ⟨_, rfl⟩

/-- Shorter descriptions are never accepted; they are undefined behaviour exactly when there are
one or two characters and the first is an initial code (the reader runs past the NUL). -/
theorem C08_short (desc : Str) (h : desc.length < 5) (dflt : Int) :
    (sylOfDesc desc dflt = .ub ↔
      (desc.length = 1 ∨ desc.length = 2) ∧ ∃ c ∈ desc[0]?, c ∈ b!"*kcgjJydtTnbpPfmrlwsh?") ∧
    (sylOfDesc desc dflt = .ub ∨ sylOfDesc desc dflt = .throw .outOfRange) := by
  have hI : ∀ c, c ∈ b!"*kcgjJydtTnbpPfmrlwsh?" ↔ ∃ v, mapAt initConsCodeToSoundTbl c = .ok v :=
    fun c => (mapAt_ok_iff initConsCodeToSoundTbl c).symm
  simp only [hI]
  have hE0 : mapAt endConsCodeToClassTbl 0 = .throw .outOfRange := rfl
  have hT0 : mapAt toneCodeToToneTbl 0 = .throw .outOfRange := rfl
  have hI0 : mapAt initConsCodeToSoundTbl 0 = .throw .outOfRange := rfl
  match desc, h with
  | [], _ => simp [sylOfDesc, strIdx, initConsCodeToSound, hI0]
  | [a], _ =>
    rcases mapAt_cases initConsCodeToSoundTbl a with ⟨v, h⟩ | h <;>
      simp [sylOfDesc, strIdx, initConsCodeToSound, h]
  | [a, b], _ =>
    rcases mapAt_cases initConsCodeToSoundTbl a with ⟨v, h⟩ | h <;>
      simp [sylOfDesc, strIdx, initConsCodeToSound, h]
  | [a, b, c], _ =>
    rcases mapAt_cases initConsCodeToSoundTbl a with ⟨v, h⟩ | h <;>
      simp [sylOfDesc, strIdx, initConsCodeToSound, endConsCodeToClass, h, hE0]
  | [a, b, c, d], _ =>
    rcases mapAt_cases initConsCodeToSoundTbl a with ⟨v, h⟩ | h <;>
    rcases mapAt_cases endConsCodeToClassTbl d with ⟨v, h'⟩ | h' <;>
      simp [sylOfDesc, strIdx, initConsCodeToSound, endConsCodeToClass, toneCodeToTone, h, h', hT0]

/-- The last clause of C08 is false: `"kQA_0"` is accepted, but printing the syllable throws,
because the cluster code `Q` is not checked. -/
theorem C08_printable_false :
    ∃ desc s, 5 ≤ desc.length ∧ sylOfDesc desc = .ok s ∧ rawSyl s = .throw .outOfRange :=
  ⟨b!"kQA_0", _, by decide, rfl, rfl⟩

/-- What holds instead: an accepted description whose cluster and vowel codes are real ones, and
whose initial and tone codes are not the placeholder `*`, gives a printable syllable.
(Missing from the full claim: the unchecked cluster and vowel codes, and `*`.) -/
theorem C08_printable_partial (desc : Str) (dflt : Int) (s : Syl) (h : sylOfDesc desc dflt = .ok s)
    (h0 : desc[0]? ≠ some ch!"*") (h1 : ∃ c : Nat, c ∈ desc[1]? ∧ (c : Int) ∈ clusters)
    (h2 : ∃ c : Nat, c ∈ desc[2]? ∧ (c : Int) ∈ vowels) (h4 : desc[4]? ≠ some ch!"*") :
    ValidSyl s ∧ ∃ text, rawSyl s = .ok text := by
  have hg := (C08_accept_iff desc dflt).mp ⟨s, h⟩
  suffices hv : ValidSyl s from ⟨hv, _, rawSyl_valid s hv⟩
  match desc, hg.1 with
  | c0 :: c1 :: c2 :: c3 :: c4 :: r, _ =>
    simp only [List.getElem?_cons_zero, List.getElem?_cons_succ, Option.mem_some_iff,
      exists_eq_left', ne_eq, Option.some.injEq] at h0 h1 h2 h4
    simp only [sylOfDesc, strIdx, initConsCodeToSound, endConsCodeToClass, toneCodeToTone,
      List.getElem?_cons_zero, List.getElem?_cons_succ, Res.ok_bind] at h
    obtain ⟨i, hi, hs⟩ := Res.bind_eq_ok.mp h
    obtain ⟨e, he, hs⟩ := Res.bind_eq_ok.mp hs
    obtain ⟨t, ht, hs⟩ := Res.bind_eq_ok.mp hs
    have hi' : i ≠ .INVALID := by
      have hm : ∀ c ∈ initConsCodeToSoundTbl.map Prod.fst, c ≠ ch!"*" →
          (mapAt initConsCodeToSoundTbl c).Sat (· ≠ .INVALID) := by decide +kernel
      have := hm c0 ((mapAt_ok_iff _ _).mp ⟨_, hi⟩) h0
      rw [hi] at this
      exact this
    have ht' : t ≠ .INVALID := by
      have hm : ∀ c ∈ toneCodeToToneTbl.map Prod.fst, c ≠ ch!"*" →
          (mapAt toneCodeToToneTbl c).Sat (· ≠ .INVALID) := by decide +kernel
      have := hm c4 ((mapAt_ok_iff _ _).mp ⟨_, ht⟩) h4
      rw [ht] at this
      exact this
    have sc : ∀ c : Nat, (c : Int) ∈ clusters → signedChar c = c := fun c hc => by
      have := (by decide +kernel : ∀ x ∈ clusters, x < 128) _ hc
      simp only [signedChar]; split <;> omega
    have sv : ∀ c : Nat, (c : Int) ∈ vowels → signedChar c = c := fun c hc => by
      have := (by decide +kernel : ∀ x ∈ vowels, x < 128) _ hc
      simp only [signedChar]; split <;> omega
    split at hs
    · obtain ⟨n, hn, hs⟩ := Res.bind_eq_ok.mp hs
      cases hs
      exact ⟨rfl, hi', by simpa [sc c1 h1] using h1, by simpa [sv c2 h2] using h2, ht'⟩
    · cases hs
      exact ⟨rfl, hi', by simpa [sc c1 h1] using h1, by simpa [sv c2 h2] using h2, ht'⟩

example : ∃ s, sylOfDesc b!"krApk" = .throw .outOfRange ∧ sylOfDesc b!"krAp1@-407" = .ok s ∧
    ValidSyl s ∧ s.endPos = -407 := ⟨_, rfl, rfl, by decide, rfl⟩

/-! ## C09: shifting -/

/-- Ordinary positions and spans move by the offset. -/
theorem C09_shift (o : Int) (s : SylString) :
    List.Forall₂ (fun x y : Syl => y = { x with endPos := y.endPos } ∧
        (0 ≤ x.endPos → y.endPos = x.endPos + o) ∧
        (∀ b e, 0 ≤ b → b < e → x.endPos = spanPos b e → y.endPos = spanPos (b + o) (e + o)))
      s (SylString.shiftEndPos s o) := by
  induction s with
  | nil => exact .nil
  | cons x xs ih =>
    refine .cons ⟨rfl, fun h => ?_, fun b e hb he h => ?_⟩ ih
    · simp only [Syl.setEndPos, SylString.shiftPos]; rw [if_neg (by omega)]
    · have : x.endPos < 0 := by rw [h]; unfold spanPos; omega
      simp only [Syl.setEndPos, SylString.shiftPos]
      rw [if_pos this, h]
      unfold spanPos; omega

theorem C09_compose (s : SylString) (o1 o2 : Int) (h1 : 0 ≤ o1) :
    SylString.shiftEndPos (SylString.shiftEndPos s o1) o2 = SylString.shiftEndPos s (o1 + o2) := by
  simp only [SylString.shiftEndPos, List.map_map, List.map_inj_left, Function.comp_apply,
    Syl.setEndPos, SylString.shiftPos]
  intro x _
  congr 1
  split <;> split <;> omega

/-- The end position of the whole string moves like that of its last syllable, and equality of
strings (which ignores end positions) is not affected. -/
theorem C09_eq (s : SylString) (o : Int) : SylString.eq (SylString.shiftEndPos s o) s = true := by
  rw [SylString.eq_iff]
  induction s with
  | nil => exact .nil
  | cons x xs ih => exact .cons (Syl.eq_refl x) ih

/-- Composition does need the first offset to be non-negative: shifting down and up again may turn an
ordinary position into another one. -/
theorem C09_nonneg_needed : ∃ (s : SylString) (o1 o2 : Int),
    SylString.shiftEndPos (SylString.shiftEndPos s o1) o2 ≠ SylString.shiftEndPos s (o1 + o2) :=
  ⟨[kra], -5, 5, by decide⟩

example : SylString.shiftEndPos [{ kra with endPos := spanPos 4 7 }, { kra with endPos := 7 }] 3 =
    [{ kra with endPos := spanPos 7 10 }, { kra with endPos := 10 }] := by decide

end Thpronun
