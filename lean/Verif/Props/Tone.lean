import Verif.Spec.Tone

/-! # C01, C02: tone rules and consonant tables -/

namespace Thpronun

open Spec

/-- C01: `ToneFromWritten` gives the tone of the school table wherever the table has an entry. -/
theorem C01_tone_table (cls : InitConsClass) (written : Tone) (dead short : Bool) (t : Tone)
    (h : prescribed cls written dead short = some t) :
    toneFromWritten cls written dead short = t := by
  revert t
  cases cls <;> cases written <;> cases dead <;> cases short <;> decide +kernel

example : prescribed .LOWS .SAMAN true false = some .THO := by decide

/-- C01: where the table has no entry the written mark is taken at face value. -/
theorem C01_unlisted (cls : InitConsClass) (written : Tone) (dead short : Bool)
    (h : prescribed cls written dead short = none) :
    toneFromWritten cls written dead short = written := by
  revert h
  cases cls <;> cases written <;> cases dead <;> cases short <;> decide +kernel

example : prescribed .HIGH .TRI false false = none := by decide

/-- C01: a real tone never becomes `INVALID`, and `INVALID` never becomes a real tone. -/
theorem C01_valid (cls : InitConsClass) (written : Tone) (dead short : Bool) :
    toneFromWritten cls written dead short = .INVALID ↔ written = .INVALID := by
  cases cls <;> cases written <;> cases dead <;> cases short <;> decide +kernel

/-- Every number in a range, one by one. -/
theorem forall_range {P : Nat → Prop} (lo n : Nat) (h : ∀ i < n, P (lo + i)) (c : Nat)
    (h1 : lo ≤ c) (h2 : c < lo + n) : P c := by
  have := h (c - lo) (by omega)
  rwa [show lo + (c - lo) = c by omega] at this

/-- C02: the class of every consonant letter is the one taught in school. -/
theorem C02_class (c : U16) (h : IsConsonant c) :
    ∃ s, initConsClass c = .ok s ∧ s ≠ .INVALID ∧ c ∈ classLetters s := by
  have key : ∀ i < 46, IsConsonant (0x0e01 + i) →
      (initConsClass (0x0e01 + i)).Sat fun s => s ≠ .INVALID ∧ 0x0e01 + i ∈ classLetters s := by
    decide +kernel
  have h' := forall_range (P := fun c => IsConsonant c → (initConsClass c).Sat fun s =>
      s ≠ .INVALID ∧ c ∈ classLetters s) 0x0e01 46 key c h.1 (Nat.lt_of_le_of_lt h.2.1 (by decide)) h
  revert h'
  cases initConsClass c <;> simp

/-- C02: conversely, every letter of a school list is mapped to it. -/
theorem C02_class_conv (s : InitConsClass) : ∀ c ∈ classLetters s, initConsClass c = .ok s := by
  cases s <;> decide +kernel

/-- C02: the initial sound of every consonant letter is the one taught in school. -/
theorem C02_sound (c : U16) (h : IsConsonant c) :
    ∃ s, initConsSound c = .ok s ∧ s ≠ .INVALID ∧ c ∈ soundLetters s := by
  have key : ∀ i < 46, IsConsonant (0x0e01 + i) →
      (initConsSound (0x0e01 + i)).Sat fun s => s ≠ .INVALID ∧ 0x0e01 + i ∈ soundLetters s := by
    decide +kernel
  have h' := forall_range (P := fun c => IsConsonant c → (initConsSound c).Sat fun s =>
      s ≠ .INVALID ∧ c ∈ soundLetters s) 0x0e01 46 key c h.1 (Nat.lt_of_le_of_lt h.2.1 (by decide)) h
  revert h'
  cases initConsSound c <;> simp

/-- C02: conversely, every letter of a school list is mapped to it. -/
theorem C02_sound_conv (s : InitConsSound) : ∀ c ∈ soundLetters s, initConsSound c = .ok s := by
  cases s <;> decide +kernel

/-- C02: a letter is of the mid class exactly when its sound is one of the seven mid sounds. -/
theorem C02_mid_sounds (c : U16) (h : IsConsonant c) :
    initConsClass c = .ok .MID ↔
      ∃ s ∈ ([.KA, .JA, .DA, .TA, .BA, .PA, .A] : List InitConsSound), initConsSound c = .ok s := by
  have key : ∀ i < 46, IsConsonant (0x0e01 + i) →
      (initConsClass (0x0e01 + i) = .ok .MID ↔
        ∃ s ∈ ([.KA, .JA, .DA, .TA, .BA, .PA, .A] : List InitConsSound),
          initConsSound (0x0e01 + i) = .ok s) := by
    decide +kernel
  exact forall_range (P := fun c => IsConsonant c →
      (initConsClass c = .ok .MID ↔
        ∃ s ∈ ([.KA, .JA, .DA, .TA, .BA, .PA, .A] : List InitConsSound),
          initConsSound c = .ok s)) 0x0e01 46 key c h.1
    (Nat.lt_of_le_of_lt h.2.1 (by decide)) h

/-- C02: the final class of every consonant letter is the one taught in school; in particular it
is `NONE` exactly for ห, อ and ฮ. -/
theorem C02_final (c : U16) (h : IsConsonant c) :
    ∃ s, endConsClass c = .ok s ∧ c ∈ finalLetters s := by
  have key : ∀ i < 46, IsConsonant (0x0e01 + i) →
      (endConsClass (0x0e01 + i)).Sat fun s => 0x0e01 + i ∈ finalLetters s := by
    decide +kernel
  have h' := forall_range (P := fun c => IsConsonant c → (endConsClass c).Sat fun s =>
      c ∈ finalLetters s) 0x0e01 46 key c h.1 (Nat.lt_of_le_of_lt h.2.1 (by decide)) h
  revert h'
  cases endConsClass c <;> simp

/-- C02: conversely, every letter of a school list is mapped to it. -/
theorem C02_final_conv (s : EndConsClass) : ∀ c ∈ finalLetters s, endConsClass c = .ok s := by
  cases s <;> decide +kernel

example : IsConsonant ch!"ห" := by decide

/-- C02: outside ก..ฮ the functions have no defined result; inside they always have one. -/
theorem C02_domain (c : U16) :
    (initConsClass c = .ub ↔ c < 0x0e01 ∨ 0x0e2e < c) ∧
    (initConsSound c = .ub ↔ c < 0x0e01 ∨ 0x0e2e < c) ∧
    (endConsClass c = .ub ↔ c < 0x0e01 ∨ 0x0e2e < c) := by
  have gen : ∀ {α} (tbl : List α), tbl.length = 46 →
      (consTblGet tbl c = .ub ↔ c < 0x0e01 ∨ 0x0e2e < c) := by
    intro α tbl hl
    simp only [consTblGet, UTH.KO_KAI]
    by_cases h : c < 3585
    · simp [h]
    · simp only [h, if_false, false_or]
      by_cases h2 : c - 3585 < tbl.length
      · rw [List.getElem?_eq_getElem h2]
        simp only [reduceCtorEq, false_iff]
        omega
      · rw [List.getElem?_eq_none (by omega)]
        simp only [true_iff]
        omega
  exact ⟨gen _ rfl, gen _ rfl, gen _ rfl⟩

end Thpronun
