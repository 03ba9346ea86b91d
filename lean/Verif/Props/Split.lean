import Verif.Lemmas.Split
import Verif.Props.Notation
import Verif.Props.Syl

/-! # Property C71: a printed line determines its syllables -/

namespace Thpronun
open Res Spec

private theorem texts_of {out : SylOutput} {delim : Byte} (hd : delim ≠ 32)
    (h : ∀ s, ValidSyl s → ∃ t, out s = .ok t ∧ t ≠ [] ∧ delim ∉ t ∧ 32 ∉ t) (l l' : SylString)
    (hl : ∀ s ∈ l, ValidSyl s ∨ IsBlank s) (hl' : ∀ s ∈ l', ValidSyl s ∨ IsBlank s)
    (he : delimStr out delim l = delimStr out delim l') :
    (groups l).map (List.map out) = (groups l').map (List.map out) := by
  have hv : ∀ s, ValidSyl s → out s = .ok (val (out s)) ∧ val (out s) ≠ [] ∧ delim ∉ val (out s) ∧ 32 ∉ val (out s) := by
    intro s hs
    obtain ⟨t, ht, h2⟩ := h s hs
    rw [ht]
    exact ⟨rfl, h2⟩
  have a : ∀ l : SylString, (∀ s ∈ l, ValidSyl s ∨ IsBlank s) → ∀ s ∈ l, ¬ IsBlank s → ValidSyl s :=
    fun l hl s hs hb => (hl s hs).resolve_right hb
  rw [C20_string out (fun s => val (out s)) delim l (fun s hs hb => (hv s (a l hl s hs hb)).1),
    C20_string out (fun s => val (out s)) delim l' (fun s hs hb => (hv s (a l' hl' s hs hb)).1)] at he
  have e := joined_groups_inj (fun s => val (out s)) delim hd l l' (fun s hs hb => (hv s (a l hl s hs hb)).2)
    (fun s hs hb => (hv s (a l' hl' s hs hb)).2) (Res.ok.inj he)
  have back : ∀ l : SylString, (∀ s ∈ l, ValidSyl s ∨ IsBlank s) → (groups l).map (List.map out) =
      ((groups l).map (List.map fun s => val (out s))).map (List.map Res.ok) := by
    intro l hl
    rw [List.map_map]
    refine List.map_congr_left fun g hg => ?_
    rw [Function.comp, List.map_map]
    exact List.map_congr_left fun s hs => (hv s (a l hl s (mem_groups hg hs).1 (mem_groups hg hs).2)).1
  rw [back l hl, back l' hl', e]

/-- Raw, Soundex and Thai lines without literal text: the same line means the same blanks and, between them, the same
syllable texts. -/
theorem C71_delim (out : SylOutput) (delim : Byte)
    (hk : (out, delim) = (rawSyl, ch!",") ∨ (out, delim) = (soundexSyl, ch!"-") ∨ (out, delim) = (thaiSyl, ch!"-"))
    (l l' : SylString) (hl : ∀ s ∈ l, ValidSyl s ∨ IsBlank s) (hl' : ∀ s ∈ l', ValidSyl s ∨ IsBlank s)
    (he : delimStr out delim l = delimStr out delim l') :
    (groups l).map (List.map out) = (groups l').map (List.map out) := by
  rcases hk with h | h | h <;> cases h
  · exact texts_of (by decide) raw_chars l l' hl hl' he
  · exact texts_of (by decide) soundex_chars l l' hl hl' he
  · exact texts_of (by decide) thai_chars l l' hl hl' he

/-- Raw lines of syllables with `int` positions determine the pronunciation itself. -/
theorem C71_raw (l l' : SylString) (hl : ∀ s ∈ l, ValidSyl s ∧ IsInt s.endPos)
    (hl' : ∀ s ∈ l', ValidSyl s ∧ IsInt s.endPos) (he : delimStr rawSyl ch!"," l = delimStr rawSyl ch!"," l') :
    l = l' := by
  have hb : ∀ l : SylString, (∀ s ∈ l, ValidSyl s ∧ IsInt s.endPos) → ∀ s ∈ l, ¬ IsBlank s := fun l hl s hs hb => by
    have := (hl s hs).1
    unfold IsBlank at hb
    exact this.iCons1 (by simp_all [Syl.blank])
  have e := C71_delim rawSyl ch!"," (.inl rfl) l l' (fun s hs => .inl (hl s hs).1) (fun s hs => .inl (hl' s hs).1) he
  rw [groups_plain (hb l hl), groups_plain (hb l' hl')] at e
  simp only [List.map_cons, List.map_nil, List.cons.injEq, and_true] at e
  clear he hb
  induction l generalizing l' with
  | nil => cases l' with
    | nil => rfl
    | cons a r => simp at e
  | cons a r ih =>
    cases l' with
    | nil => simp at e
    | cons a' r' =>
      simp only [List.map_cons, List.cons.injEq] at e
      obtain ⟨t, h1, h2⟩ := C06_roundtrip a (hl a (by simp)).1 (hl a (by simp)).2 0
      obtain ⟨t', h1', h2'⟩ := C06_roundtrip a' (hl' a' (by simp)).1 (hl' a' (by simp)).2 0
      rw [h1, h1'] at e
      rw [Res.ok.inj e.1, h2'] at h2
      rw [Res.ok.inj h2, ih r' (fun s hs => hl s (by simp [hs])) (fun s hs => hl' s (by simp [hs])) e.2]

/-- Phonetic lines, where the delimiter is the space, determine the syllable texts of pronunciations without blanks. -/
theorem C71_phonetic_partial (l l' : SylString) (hl : ∀ s ∈ l, ValidSyl s) (hl' : ∀ s ∈ l', ValidSyl s)
    (he : delimStr phoneticSyl ch!" " l = delimStr phoneticSyl ch!" " l') : l.map phoneticSyl = l'.map phoneticSyl := by
  have hv : ∀ s, ValidSyl s → phoneticSyl s = .ok (val (phoneticSyl s)) ∧ val (phoneticSyl s) ≠ [] ∧
      32 ∉ val (phoneticSyl s) := by
    intro s hs
    obtain ⟨t, ht, h2⟩ := phonetic_chars s hs
    rw [ht]
    exact ⟨rfl, h2⟩
  have hb : ∀ l : SylString, (∀ s ∈ l, ValidSyl s) → ∀ s ∈ l, ¬ IsBlank s := fun l hl s hs hb => by
    have := hl s hs
    unfold IsBlank at hb
    exact this.iCons1 (by simp_all [Syl.blank])
  rw [C20_string phoneticSyl (fun s => val (phoneticSyl s)) ch!" " l (fun s hs _ => (hv s (hl s hs)).1),
    C20_string phoneticSyl (fun s => val (phoneticSyl s)) ch!" " l' (fun s hs _ => (hv s (hl' s hs)).1),
    groups_plain (hb l hl), groups_plain (hb l' hl')] at he
  have e := Res.ok.inj he
  simp only [List.map_cons, List.map_nil, joinWith] at e
  have ne : ∀ l : SylString, (∀ s ∈ l, ValidSyl s) → ∀ p ∈ l.map fun s => val (phoneticSyl s), p ≠ [] ∧ 32 ∉ p := by
    intro l hl p hp
    obtain ⟨s, hs, rfl⟩ := List.mem_map.mp hp
    exact (hv s (hl s hs)).2
  have k : (l.map fun s => val (phoneticSyl s)) = l'.map fun s => val (phoneticSyl s) := by
    by_cases h1 : (l.map fun s => val (phoneticSyl s)) = []
    · rw [h1] at e ⊢
      exact (joinWith_eq_nil (fun p hp => (ne l' hl' p hp).1) e.symm).symm
    by_cases h2 : (l'.map fun s => val (phoneticSyl s)) = []
    · rw [h2] at e ⊢
      exact joinWith_eq_nil (fun p hp => (ne l hl p hp).1) e
    exact joinWith_inj _ _ _ h1 h2 (fun p hp => (ne l hl p hp).2) (fun p hp => (ne l' hl' p hp).2) e
  have back : ∀ l : SylString, (∀ s ∈ l, ValidSyl s) → l.map phoneticSyl =
      (l.map fun s => val (phoneticSyl s)).map Res.ok := by
    intro l hl
    rw [List.map_map]
    exact List.map_congr_left fun s hs => (hv s (hl s hs)).1
  rw [back l hl, back l' hl', k]

private def sy (i : InitConsSound) (c v : Int) (e : EndConsClass) : Syl := ⟨i, c, v, e, .SAMAN, [], 0⟩

/-- In phonetic lines a blank between two words cannot be told from two syllables of one word: กา กา, กากา. -/
theorem C71_phonetic_false : ∃ l l' : SylString, (∀ s ∈ l, ValidSyl s ∨ IsBlank s) ∧ (∀ s ∈ l', ValidSyl s ∨ IsBlank s) ∧
    delimStr phoneticSyl ch!" " l = .ok b!"kaa0 kaa0" ∧ delimStr phoneticSyl ch!" " l' = .ok b!"kaa0 kaa0" ∧
    (groups l).map (List.map phoneticSyl) ≠ (groups l').map (List.map phoneticSyl) :=
  ⟨[sy .KA SC.NONE VW.AA .NONE, Syl.blank, sy .KA SC.NONE VW.AA .NONE],
    [sy .KA SC.NONE VW.AA .NONE, sy .KA SC.NONE VW.AA .NONE], by decide +kernel⟩

/-- Literal text can imitate delimiters and codes: the one text `a)-kan-(b`, and the syllable kan between two texts. -/
theorem C71_literal_false : ∃ l l' : SylString, l.length = 1 ∧ l'.length = 3 ∧
    delimStr soundexSyl ch!"-" l = .ok b!"(a)-kan-(b)" ∧ delimStr soundexSyl ch!"-" l' = .ok b!"(a)-kan-(b)" :=
  ⟨[{ Syl.blank with literal := u!"a)-kan-(b" }],
    [{ Syl.blank with literal := u!"a" }, sy .KA SC.NONE VW.A .KON, { Syl.blank with literal := u!"b" }],
    by decide +kernel⟩

/-- Roman lines do not determine the syllables: มัก-หา and มะ-ขา are both "makha". -/
theorem C71_roman_false : ∃ l l' : SylString, (∀ s ∈ l, ValidSyl s) ∧ (∀ s ∈ l', ValidSyl s) ∧
    romanStr false l = .ok b!"makha" ∧ romanStr false l' = .ok b!"makha" ∧ l.map romanSyl ≠ l'.map romanSyl :=
  ⟨[sy .MA SC.NONE VW.A .KOK, sy .HA SC.NONE VW.AA .NONE], [sy .MA SC.NONE VW.A .NONE, sy .KHA SC.NONE VW.AA .NONE],
    by decide +kernel⟩

private theorem roman_val (s : Syl) (h : ValidSyl s) :
    val (romanSyl s) = rOn s.iCons1 s.iCons2 ++ rRun s.vowel s.eCons ++ rFin s.eCons := by
  rw [roman_parts s h]; rfl

private theorem roman_line (l : SylString) (hl : l ≠ []) (h : ∀ s ∈ l, ValidSyl s) :
    romanStr false l = .ok (hyphenated (fun s => val (romanSyl s)) l) :=
  C27_hyphen_partial _ l hl (fun s hs => by rw [roman_parts s (h s hs)]; rfl) fun s hs hb => by
    have := h s hs
    unfold IsBlank at hb
    exact this.iCons1 (by simp_all [Syl.blank])

/-- Without such neighbours they do. -/
theorem C71_roman_partial (cap : Bool) (l l' : SylString) (h0 : l ≠ []) (h0' : l' ≠ []) (hl : ∀ s ∈ l, ValidSyl s)
    (hl' : ∀ s ∈ l', ValidSyl s) (hn : Neighbours (fun a b => ¬ Blurred a b) l)
    (hn' : Neighbours (fun a b => ¬ Blurred a b) l') (he : romanStr cap l = romanStr cap l') :
    l.map romanSyl = l'.map romanSyl := by
  have hs : hyphenated (fun s => val (romanSyl s)) l = hyphenated (fun s => val (romanSyl s)) l' := by
    cases cap with
    | false => rw [roman_line l h0 hl, roman_line l' h0' hl'] at he; exact Res.ok.inj he
    | true =>
      rw [C27_capital, C27_capital, roman_line l h0 hl, roman_line l' h0' hl'] at he
      have lower : ∀ l : SylString, l ≠ [] → (∀ s ∈ l, ValidSyl s) →
          ∃ x t, hyphenated (fun s => val (romanSyl s)) l = x :: t ∧ 97 ≤ x ∧ x ≤ 122 := by
        intro l h0 hl
        obtain ⟨s, r, rfl⟩ := List.exists_cons_of_ne_nil h0
        have hs := hl s (by simp)
        rw [line_parts roman_val s hs]
        have q := (by decide +kernel : ∀ i ∈ allInit, ∀ c ∈ Spec.clusters, ∀ x ∈ rOn i c, 97 ≤ x ∧ x ≤ 122)
          _ (mem_allInit hs.iCons1) _ hs.iCons2
        have q' := (by decide +kernel : ∀ v ∈ vowels, ∀ e ∈ allEnd, ∀ x ∈ rRun v e, 97 ≤ x ∧ x ≤ 122)
          _ hs.vowel _ (mem_allEnd s.eCons)
        cases h : rOn s.iCons1 s.iCons2 with
        | cons y ys => exact ⟨y, _, rfl, q y (by simp [h])⟩
        | nil =>
          cases h' : rRun s.vowel s.eCons with
          | nil => exact absurd h' (rRun_vow _ hs.vowel _ (mem_allEnd s.eCons)).2
          | cons y ys => exact ⟨y, _, rfl, q' y (by simp [h'])⟩
      obtain ⟨x, t, e1, x1, x2⟩ := lower l h0 hl
      obtain ⟨x', t', e1', x1', x2'⟩ := lower l' h0' hl'
      rw [e1, e1'] at he ⊢
      have := Res.ok.inj he
      simp only [upperFirst, List.cons.injEq] at this
      rw [this.2]
      congr 1
      have := this.1
      split at this <;> split at this <;> omega
  have k := line_inj roman_val l l' hl hl' hn hn' hs
  have back : ∀ l : SylString, (∀ s ∈ l, ValidSyl s) → l.map romanSyl =
      (l.map fun s => val (romanSyl s)).map Res.ok := by
    intro l hl
    rw [List.map_map]
    exact List.map_congr_left fun s hs => by rw [Function.comp, roman_parts s (hl s hs)]; rfl
  rw [back l hl, back l' hl', k]

/-- No neighbour can be left out: each such pair has another reading of its line. -/
theorem C71_roman_each (a b : Syl) (ha : ValidSyl a) (hb : ValidSyl b) (h : Blurred a b) :
    ∃ a' b', ValidSyl a' ∧ ValidSyl b' ∧ (∀ cap, romanStr cap [a, b] = romanStr cap [a', b']) ∧
      [a, b].map romanSyl ≠ [a', b'].map romanSyl := by
  have key : ∃ i c, i ∈ allInit ∧ i ≠ .A ∧ i ≠ .NGA ∧ c ∈ Spec.clusters ∧ rFin a.eCons ++ rOn b.iCons1 b.iCons2 = rOn i c ∧
      b.iCons1 ≠ .A ∧ b.iCons1 ≠ .NGA ∧ rFin a.eCons ≠ [] := by
    rcases h with ⟨h1, h2⟩ | ⟨h1, h2, h3⟩
    · rw [h1]
      have := (by decide +kernel : ∀ e ∈ [EndConsClass.KOK, .KOT, .KOP], ∀ c ∈ Spec.clusters,
        ∃ i ∈ [InitConsSound.KHA, .THA, .PHA], rFin e ++ rOn .HA c = rOn i c ∧ rFin e ≠ []) _ h2 _ hb.iCons2
      obtain ⟨i, hi, e, f⟩ := this
      refine ⟨i, b.iCons2, ?_, ?_, ?_, hb.iCons2, e, by decide, by decide, f⟩
      · cases i <;> first | decide | (exfalso; revert hi; decide)
      · rintro rfl; revert hi; decide
      · rintro rfl; revert hi; decide
    · rw [h2]
      have := (by decide +kernel : ∀ e ∈ [EndConsClass.KOK, .KOT, .KOP, .KON, .KOM], ∀ j ∈ [InitConsSound.RA, .LA, .WA],
        ∃ i ∈ [InitConsSound.KA, .TA, .PA, .NA, .MA], ∃ c ∈ Spec.clusters, rFin e ++ rOn j SC.NONE = rOn i c ∧ rFin e ≠ [])
        _ h3 _ h1
      obtain ⟨i, hi, c, hc, e, f⟩ := this
      refine ⟨i, c, ?_, ?_, ?_, hc, e, ?_, ?_, f⟩
      · cases i <;> first | decide | (exfalso; revert hi; decide)
      · rintro rfl; revert hi; decide
      · rintro rfl; revert hi; decide
      · intro q; rw [q] at h1; revert h1; decide
      · intro q; rw [q] at h1; revert h1; decide
  obtain ⟨i, c, k1, k2, k3, k4, k5, k6, k7, k8⟩ := key
  have hi : i ≠ .INVALID := by rintro rfl; revert k1; decide
  have hna : rRun a.vowel a.eCons = rRun a.vowel .NONE := by
    have : a.eCons ≠ .KOEY ∧ a.eCons ≠ .KOEW := by
      constructor <;> (intro e; rw [e] at k8; exact k8 rfl)
    simp [rRun, this.1, this.2]
  have va : ValidSyl { a with eCons := .NONE } := ⟨ha.literal, ha.iCons1, ha.iCons2, ha.vowel, ha.tone⟩
  have vb : ValidSyl { b with iCons1 := i, iCons2 := c } := ⟨hb.literal, hi, k4, hb.vowel, hb.tone⟩
  refine ⟨{ a with eCons := .NONE }, { b with iCons1 := i, iCons2 := c }, va, vb, fun cap => ?_, ?_⟩
  · have lines : romanStr false [a, b] = romanStr false [{ a with eCons := .NONE }, { b with iCons1 := i, iCons2 := c }] := by
      rw [roman_line _ (by simp) (by simp [ha, hb]), roman_line _ (by simp) (by simp [va, vb])]
      simp only [hyphenated, needsHyphen, k2, k3, k6, k7, decide_false, Bool.false_and, Bool.or_self,
        Bool.false_eq_true, if_false, List.append_nil, roman_val _ ha, roman_val _ hb, roman_val _ va, roman_val _ vb,
        hna, ← k5]
      have : rFin .NONE = [] := by decide
      simp [this]
    cases cap with
    | false => exact lines
    | true => rw [C27_capital, C27_capital, lines]
  · simp only [List.map_cons, List.map_nil, ne_eq, List.cons.injEq, not_and]
    intro e
    rw [roman_parts a ha, roman_parts _ va] at e
    have e := Res.ok.inj e
    simp only [hna] at e
    exact absurd (List.append_cancel_left e) (by rw [(by decide : rFin .NONE = [])]; exact k8)

/-- ประ-เทศ-ไทย and its like meet the hypotheses; ก-ลา after a closed syllable does not. -/
example : Neighbours (fun a b => ¬ Blurred a b)
    [sy .PA SC.RA VW.A .NONE, sy .THA SC.NONE VW.EE .KOT, sy .THA SC.NONE VW.A .KOEY] ∧
    romanStr true [sy .PA SC.RA VW.A .NONE, sy .THA SC.NONE VW.EE .KOT, sy .THA SC.NONE VW.A .KOEY] =
      .ok b!"Prathetthai" ∧ Blurred (sy .PA SC.RA VW.A .KOK) (sy .LA SC.NONE VW.AA .NONE) := by decide +kernel

end Thpronun
