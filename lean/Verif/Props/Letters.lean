import Verif.Lemmas.Letters
import Verif.Lemmas.Raw

/-! # Properties C25–C27: the letters of the notations -/

namespace Thpronun
open Spec

/-- Every valid syllable has onset letters. -/
theorem C27_onset (s : Syl) (h : ValidSyl s) : ∃ t, RtgsOnset s t := by
  obtain ⟨r, hr, hx, l, hl, hl1, h2⟩ := onset_exists _ (mem_allInit h.iCons1) _ h.iCons2
  rcases h2 with e | ⟨r', hr', x, hx', e⟩
  · exact ⟨_, r, hr, hx, l, hl, hl1, .inl ⟨e, rfl⟩⟩
  · exact ⟨_, r, hr, hx, l, hl, hl1, .inr ⟨r', hr', ⟨x, hx', e⟩, rfl⟩⟩

/-- A syllable written with a vowel pattern that takes no final has the RTGS letters of its onset and pattern. -/
theorem C27_open (s : Syl) (h : ValidSyl s) {t : Str} (ht : RtgsOnset s t) {pat : Pattern} (hp : pat ∈ openPatterns)
    {x : Str} (hx : (pat.lead, pat.sign, pat.tail, x) ∈ rtgsOpen) (hv : s.vowel = pat.vowel) (he : s.eCons = pat.final) :
    romanSyl s = .ok (t ++ x) := by
  obtain ⟨a, b, ha, hb, rfl⟩ := rtgsOnset_roman h ht
  obtain ⟨v, hvm, hv1, e, hem, he1, hx⟩ := roman_tbl_open pat hp _ hx rfl
  obtain ⟨a', b', c', d', ha', hb', hc', hd', h'⟩ := roman_valid s h
  rw [hv, ← hv1, roman_tbl_nodup.1 v hvm] at hc'
  rw [he, ← he1, roman_tbl_nodup.2 e hem] at hd'
  rw [ha] at ha'; rw [hb] at hb'
  cases ha'; cases hb'; cases hc'; cases hd'
  rw [h', show x = _ from hx]
  simp only [List.append_assoc]

/-- A syllable written with a vowel pattern and a final letter has the RTGS letters of its onset, pattern and final. -/
theorem C27_closed (s : Syl) (h : ValidSyl s) {t : Str} (ht : RtgsOnset s t) {pat : Pattern} (hp : pat ∈ closedPatterns)
    {x : Str} (hx : (pat.lead, pat.sign, pat.tail, x) ∈ rtgsClosed) (hv : s.vowel = pat.vowel) (hn : s.eCons ≠ .NONE)
    {r : U16Str × Str × Str} (hr : r ∈ rtgs) {c : Nat} (hc : c ∈ r.1) (hf : c ∈ finalLetters s.eCons) :
    romanSyl s = .ok (t ++ x ++ r.2.2) := by
  obtain ⟨a, b, ha, hb, rfl⟩ := rtgsOnset_roman h ht
  have k := roman_tbl_closed pat hp _ hx rfl
  have k2 := roman_tbl_final s.eCons (by revert hn; cases s.eCons <;> decide) r hr ⟨c, hc, hf⟩
  obtain ⟨a', b', c', d', ha', hb', hc', hd', h'⟩ := roman_valid s h
  rw [hv, k] at hc'
  rw [k2] at hd'
  rw [ha] at ha'; rw [hb] at hb'
  cases ha'; cases hb'; cases hc'; cases hd'
  exact h'

/-- Every pattern has its RTGS letters; every final its letter. -/
example : (∀ p ∈ openPatterns, ∃ r ∈ rtgsOpen, (p.lead, p.sign, p.tail) = (r.1, r.2.1, r.2.2.1)) ∧
    (∀ p ∈ closedPatterns, ∃ r ∈ rtgsClosed, (p.lead, p.sign, p.tail) = (r.1, r.2.1, r.2.2.1)) ∧
    (∀ e ∈ [EndConsClass.KOK, .KOT, .KOP, .KONG, .KON, .KOM, .KOEY, .KOEW], ∀ c ∈ finalLetters e, ∃ r ∈ rtgs, c ∈ r.1) ∧
    (∀ v ∈ vowels, ∃ p ∈ openPatterns, p.vowel = v) := by decide +kernel

/-! ## Phonetic notation -/

/-- The phonetic notation of a valid syllable is its phonetic text. -/
theorem C26_letters (s : Syl) (h : ValidSyl s) : ∃ t, phoneticSyl s = .ok t ∧ PhoneticText s t := by
  obtain ⟨a, b, c, d, e, ha, hb, hc, hd, he, ht⟩ := phonetic_valid s h
  have ha := mapAt_mem ha; have hb := mapAt_mem hb; have hc := mapAt_mem hc; have hd := mapAt_mem hd
  have he := mapAt_mem he
  refine ⟨_, ht, a, b, c, d, ?_, phonetic_tbl_init _ ha, fun l hl hl1 => ?_, fun q hq => phonetic_tbl_vowel _ hc q hq,
    fun hn => (phonetic_tbl_final _ hd).1 hn, fun x hx hx1 => (phonetic_tbl_final _ hd).2 x hx hx1⟩
  · rw [show e = _ from phonetic_tbl_tone _ he]
  · rcases phonetic_tbl_second _ hb l hl hl1 with h | ⟨x, -, h⟩
    · exact .inl h
    · exact .inr ⟨x, h⟩

/-- The text is determined. -/
theorem C26_unique (s : Syl) (h : ValidSyl s) {t t' : Str} (ht : PhoneticText s t) (ht' : PhoneticText s t') : t = t' := by
  obtain ⟨a, b, v, f, rfl, h1, h2, h3, h4, h5⟩ := ht
  obtain ⟨a', b', v', f', rfl, h1', h2', h3', h4', h5'⟩ := ht'
  obtain ⟨e1, e2, e3, e4⟩ := letters_exist
  have ea : a = a' := by
    obtain ⟨c, hc⟩ := List.exists_mem_of_ne_nil _ (e1 _ (mem_allInit h.iCons1))
    exact phoneticLetter_unique (h1 c hc) (h1' c hc)
  have eb : b = b' := by
    obtain ⟨l, hl, hl1⟩ := e2 _ h.iCons2
    rcases h2 l hl hl1 with ⟨k, rfl⟩ | ⟨c, k, hc⟩ <;> rcases h2' l hl hl1 with ⟨k', rfl⟩ | ⟨c', k', hc'⟩
    · rfl
    · rw [k] at k'; cases k'
    · rw [k] at k'; cases k'
    · rw [k] at k'; cases k'; exact phoneticLetter_unique hc hc'
  have ev : v = v' := by
    obtain ⟨q, hq, hv⟩ := e3 _ h.vowel
    rcases hv with hv | hv
    · rw [(h3 q hq).1 hv, (h3' q hq).1 hv]
    · rw [(h3 q hq).2 hv, (h3' q hq).2 hv]
  have ef : f = f' := by
    by_cases hn : s.eCons = .NONE
    · rw [h4 hn, h4' hn]
    · obtain ⟨x, hx, hx1, hx2⟩ := e4 s.eCons (by revert hn; cases s.eCons <;> decide)
      obtain ⟨c, hc⟩ := List.exists_mem_of_ne_nil _ (e1 _ hx2)
      exact phoneticLetter_unique (h5 x hx hx1 c hc) (h5' x hx hx1 c hc)
  rw [ea, eb, ev, ef]

/-! ## Soundex -/

/-- Soundex is the descriptor without second consonant and tone, with r as l and long vowels as short ones. -/
theorem C25_letters (s : Syl) (h : ValidSyl s) : ∃ a b v e t r,
    rawSyl { s with iCons1 := mergeRL s.iCons1, vowel := shortOf s.vowel } = .ok ([a, b, v, e, t] ++ r) ∧
    soundexSyl s = .ok [a, v, e] := by
  have h1 := soundex_raw_init _ (mem_allInit h.iCons1)
  have h2 := soundex_raw_vowel _ h.vowel
  have hv : ValidSyl { s with iCons1 := mergeRL s.iCons1, vowel := shortOf s.vowel } :=
    ⟨h.literal, h1.2, h.iCons2, h2.2, h.tone⟩
  obtain ⟨a, c, d, ha, hc, hd, ht⟩ := soundex_valid s h
  rw [h1.1] at ha; rw [h2.1] at hc; rw [soundex_raw_final] at hd
  cases ha; cases hc; cases hd
  exact ⟨_, _, _, _, _, _, rawSyl_valid _ hv, ht⟩

/-- รูก: "lu" and k. -/
example : ValidSyl ⟨.RA, SC.NONE, VW.UU, .KOK, .EK, [], 3⟩ ∧
    soundexSyl ⟨.RA, SC.NONE, VW.UU, .KOK, .EK, [], 3⟩ = .ok b!"luk" := by decide +kernel

end Thpronun
