import Verif.Spec.Letters
import Verif.Lemmas.Notation

/-! # Letters of the notations: tables -/

namespace Thpronun
open Spec

theorem roman_tbl_init : ∀ i ∈ allInit, ∀ r ∈ rtgs, (∃ x ∈ r.1, x ∈ soundLetters i) →
    mapAt romanInitConsTbl i = .ok r.2.1 := by decide +kernel

theorem roman_tbl_second : ∀ l ∈ secondLetter, (l.2 = [] → mapAt romanSecInitConsTbl l.1 = .ok []) ∧
    ∀ r ∈ rtgs, (∃ x ∈ r.1, l.2 = [x]) → mapAt romanSecInitConsTbl l.1 = .ok r.2.1 := by decide +kernel

theorem roman_tbl_final : ∀ e ∈ [EndConsClass.KOK, .KOT, .KOP, .KONG, .KON, .KOM, .KOEY, .KOEW], ∀ r ∈ rtgs,
    (∃ x ∈ r.1, x ∈ finalLetters e) → mapAt romanEndConsTbl e = .ok r.2.2 := by
  decide +kernel

theorem roman_tbl_open : ∀ p ∈ openPatterns, ∀ r ∈ rtgsOpen, (p.lead, p.sign, p.tail) = (r.1, r.2.1, r.2.2.1) →
    ∃ v ∈ romanVowelTbl, v.1 = p.vowel ∧ ∃ e ∈ romanEndConsTbl, e.1 = p.final ∧ r.2.2.2 = v.2 ++ e.2 := by
  decide +kernel

theorem roman_tbl_closed : ∀ p ∈ closedPatterns, ∀ r ∈ rtgsClosed, (p.lead, p.sign, p.tail) = (r.1, r.2.1, r.2.2.1) →
    mapAt romanVowelTbl p.vowel = .ok r.2.2.2 := by
  decide +kernel

theorem roman_tbl_nodup : (∀ a ∈ romanVowelTbl, mapAt romanVowelTbl a.1 = .ok a.2) ∧
    (∀ a ∈ romanEndConsTbl, mapAt romanEndConsTbl a.1 = .ok a.2) := by decide +kernel

theorem onset_exists : ∀ i ∈ allInit, ∀ c ∈ Spec.clusters, ∃ r ∈ rtgs, (∃ x ∈ r.1, x ∈ soundLetters i) ∧
    ∃ l ∈ secondLetter, l.1 = c ∧ (l.2 = [] ∨ ∃ r' ∈ rtgs, ∃ x ∈ r'.1, l.2 = [x]) := by decide +kernel

theorem rtgsOnset_roman {s : Syl} (h : ValidSyl s) {t : Str} (ht : RtgsOnset s t) :
    ∃ a b, mapAt romanInitConsTbl s.iCons1 = .ok a ∧ mapAt romanSecInitConsTbl s.iCons2 = .ok b ∧ t = a ++ b := by
  obtain ⟨r, hr, hx, l, hl, hl1, h2⟩ := ht
  have k1 := roman_tbl_init _ (mem_allInit h.iCons1) r hr hx
  obtain ⟨k3, k4⟩ := roman_tbl_second l hl
  rw [hl1] at k3 k4
  rcases h2 with ⟨e, rfl⟩ | ⟨r', hr', hx', rfl⟩
  · exact ⟨_, _, k1, k3 e, by simp⟩
  · exact ⟨_, _, k1, k4 r' hr' hx', rfl⟩

instance (c t) : Decidable (PhoneticLetter c t) := by unfold PhoneticLetter; infer_instance

theorem phonetic_tbl_init : ∀ p ∈ phoneticInitConsTbl, ∀ c ∈ soundLetters p.1, PhoneticLetter c p.2 := by decide +kernel

theorem phonetic_tbl_second : ∀ p ∈ phoneticSecInitConsTbl, ∀ l ∈ secondLetter, l.1 = p.1 →
    (l.2 = [] ∧ p.2 = []) ∨ ∃ c ∈ l.2, l.2 = [c] ∧ PhoneticLetter c p.2 := by decide +kernel

theorem phonetic_tbl_vowel : ∀ p ∈ phoneticVowelTbl, ∀ q ∈ qualities,
    (q.1 = p.1 → p.2 = q.2.2 ++ b!"h") ∧ (q.2.1 = p.1 → p.2 = q.2.2 ++ lengthen q.2.2) := by decide +kernel

theorem phonetic_tbl_final : ∀ p ∈ phoneticEndConsTbl, (p.1 = .NONE → p.2 = []) ∧
    ∀ x ∈ finalSound, x.1 = p.1 → ∀ c ∈ soundLetters x.2, PhoneticLetter c p.2 := by decide +kernel

theorem phonetic_tbl_tone : ∀ p ∈ phoneticToneTbl, p.2 = toneDigit p.1 := by decide +kernel

theorem rtgs_row : ∀ r ∈ rtgs, ∀ c ∈ r.1, ∀ r' ∈ rtgs, c ∈ r'.1 → r = r' := by decide +kernel

theorem phoneticLetter_unique {c : Nat} {t t' : Str} (h : PhoneticLetter c t) (h' : PhoneticLetter c t') : t = t' := by
  rcases h with ⟨h1, rfl⟩ | ⟨h1, r, hr, hc, rfl⟩ <;> rcases h' with ⟨h2, rfl⟩ | ⟨h2, r', hr', hc', rfl⟩
  · rfl
  · exact absurd h1 h2
  · exact absurd h2 h1
  · rw [rtgs_row r hr c hc r' hr' hc']

theorem letters_exist : (∀ i ∈ allInit, soundLetters i ≠ []) ∧ (∀ c ∈ Spec.clusters, ∃ l ∈ secondLetter, l.1 = c) ∧
    (∀ v ∈ vowels, ∃ q ∈ qualities, q.1 = v ∨ q.2.1 = v) ∧
    (∀ e ∈ [EndConsClass.KOK, .KOT, .KOP, .KONG, .KON, .KOM, .KOEY, .KOEW], ∃ x ∈ finalSound, x.1 = e ∧ x.2 ∈ allInit) := by
  decide +kernel

theorem soundex_raw_init : ∀ i ∈ allInit, mapAt soundexInitConsTbl i = .ok [rawI (mergeRL i)] ∧ mergeRL i ≠ .INVALID := by
  decide +kernel
theorem soundex_raw_vowel : ∀ v ∈ vowels, mapAt soundexVowelTbl v = .ok [(shortOf v).toNat] ∧ shortOf v ∈ vowels := by
  decide +kernel
theorem soundex_raw_final (e : EndConsClass) : mapAt soundexEndConsTbl e = .ok [rawE e] := by
  cases e <;> rfl

end Thpronun
