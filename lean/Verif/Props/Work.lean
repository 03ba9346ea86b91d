import Verif.Lemmas.WorkUpper
import Verif.Props.Parser
import Mathlib.Tactic.Linarith

/-! # C57: the work of the parser -/

namespace Thpronun
open Res Spec

/-- The main loop of `ParseU16` on `w` ends within `n` turns (a turn takes one state out of the pool). -/
def Spec.Within (ct : CType) (dict : Option Dict) (brk : List Int) (n : Nat) (w : U16Str) : Prop :=
  parseU16Fuel ct w n dict brk ≠ .diverge

/-- What the loop returns within any number of turns is what `ParseU16` returns. -/
theorem C57_within {ct : CType} {dict : Option Dict} {brk : List Int} {n : Nat} {w : U16Str}
    (h : Spec.Within ct dict brk n w) : parseU16 ct w dict brk = parseU16Fuel ct w n dict brk :=
  parseU16_fuel h

theorem within_mono {ct : CType} {dict : Option Dict} {brk : List Int} {n m : Nat} {w : U16Str}
    (h : Spec.Within ct dict brk n w) (hm : n ≤ m) : Spec.Within ct dict brk m w := by
  obtain ⟨k, rfl⟩ := Nat.exists_eq_add_of_le hm
  unfold Spec.Within parseU16Fuel at h ⊢
  cases hp : parseInit ct w brk with
  | ok pool =>
    rw [hp, ok_bind] at h
    rw [ok_bind, iterLoop_mono h]
    exact h
  | throw e => simp
  | ub => simp
  | diverge => rw [hp] at h; exact absurd rfl h

/-- ราคราค…ราคา -/
def Spec.raakha (n : Nat) : U16Str := (List.replicate n u!"ราค").flatten ++ u!"า"

theorem raakha_eq (n : Nat) : Spec.raakha n = Work.long n := rfl

/-- A word of `3 * n + 1` letters for which the loop takes more than `2 ^ n` turns, without dictionary and without word
breaking; the parser does return. -/
theorem C57_exp (n : Nat) (hn : 0 < n) :
    (Spec.raakha n).length = 3 * n + 1 ∧ ¬ Spec.Within thaiCType none [] (2 ^ n) (Spec.raakha n) ∧
      ∃ d, parseU16 thaiCType (Spec.raakha n) none [] = .ok d := by
  rw [raakha_eq]
  refine ⟨Work.long_length n, fun h => h (Work.long_turns hn), ?_⟩
  refine parseU16_ok thaiCType_ok (look := fun _ => none) (by simp [Holds]) (fun v d h => by cases h) (by simp) ?_
  intro c hc hl
  rw [Work.long_length, Nat.add_sub_cancel, Work.long_last] at hc
  cases hc
  revert hl
  decide

theorem poly_lt_exp (c k : Nat) : ∃ n, 0 < n ∧ c * (3 * n + 2) ^ k ≤ 2 ^ n := by
  obtain ⟨j, hj⟩ : ∃ j, j = c + 2 * k + 3 := ⟨_, rfl⟩
  refine ⟨2 ^ (2 * j), Nat.two_pow_pos _, ?_⟩
  have h1 : 3 * 2 ^ (2 * j) + 2 ≤ 2 ^ (2 * j + 3) := by
    have := Nat.two_pow_pos (2 * j)
    rw [pow_add]; omega
  have h2 : c ≤ 2 ^ c := Nat.lt_two_pow_self.le
  have h3 : c + (2 * j + 3) * k ≤ 2 ^ (2 * j) := by
    have h4 : j + 1 ≤ 2 ^ j := Nat.lt_two_pow_self
    have h5 : (j + 1) * (j + 1) ≤ 2 ^ (2 * j) := by
      rw [two_mul, pow_add]; exact Nat.mul_le_mul h4 h4
    refine le_trans ?_ h5
    subst hj
    nlinarith [Nat.zero_le (c * c), Nat.zero_le (c * k), Nat.zero_le (k * k)]
  calc c * (3 * 2 ^ (2 * j) + 2) ^ k ≤ 2 ^ c * (2 ^ (2 * j + 3)) ^ k :=
        Nat.mul_le_mul h2 (Nat.pow_le_pow_left h1 k)
    _ = 2 ^ (c + (2 * j + 3) * k) := by rw [← pow_mul, pow_add]
    _ ≤ 2 ^ 2 ^ (2 * j) := Nat.pow_le_pow_right (by decide) h3

/-- No polynomial in the length of the word bounds the number of turns. -/
theorem C57_false : ¬ ∃ c k : Nat, ∀ w : U16Str, Spec.Within thaiCType none [] (c * (w.length + 1) ^ k) w := by
  rintro ⟨c, k, h⟩
  obtain ⟨n, hn, hle⟩ := poly_lt_exp c k
  obtain ⟨h1, h2, -⟩ := C57_exp n hn
  refine h2 (within_mono (h (Spec.raakha n)) ?_)
  rw [h1]
  exact hle

/-- A consonant on which a syllable can end while the next one begins with it: before a vowel other than a leading one
(ฤ ะ ◌ั า ◌ิ ◌ี ◌ุ ◌ู), or before a consonant followed by such a vowel or another consonant. -/
def Spec.Shared (ct : CType) (w : U16Str) (i : Nat) : Prop :=
  ∃ c d, w[i]? = some c ∧ ct.isCons c = true ∧ w[i + 1]? = some d ∧
    (d ∈ [0xe24, 0xe30, 0xe31, 0xe32, 0xe34, 0xe35, 0xe38, 0xe39] ∨ ct.isCons d = true ∧
      ∃ n, w[i + 2]? = some n ∧ (n ∈ [0xe24, 0xe30, 0xe31, 0xe32, 0xe34, 0xe35, 0xe38, 0xe39] ∨ ct.isCons n = true))

/-- Without shared consonants the number of turns is linear in the length of the word, for every dictionary and all
breaks. (Missing: words with shared consonants, see `C57_exp`.) -/
theorem C57_partial {ct : CType} (hct : ct.Ok) (dict : Option Dict) (brk : List Int) (w : U16Str)
    (h : ∀ i, ¬ Spec.Shared ct w i) : Spec.Within ct dict brk (2 * w.length + 3) w :=
  parse_bound hct dict h

/-- For every word, dictionary and breaks the loop ends, in whatever way, within exponentially many turns: with `C57_exp`
the most turns for a word of `n` letters lie between `2 ^ (n / 3)` and `2 * 36 ^ n + 1`. -/
theorem C57_upper {ct : CType} (hct : ct.Ok) (dict : Option Dict) (brk : List Int) (w : U16Str) :
    Spec.Within ct dict brk (2 * 36 ^ w.length + 1) w :=
  parse_upper hct dict

/-- แมวเป็นเพื่อน is such a word. -/
example : ∀ i, ¬ Spec.Shared thaiCType u!"แมวเป็นเพื่อน" i := by
  have key : ∀ i ∈ List.range 13, ((u!"แมวเป็นเพื่อน" : U16Str)[i]?.all fun c =>
      (u!"แมวเป็นเพื่อน" : U16Str)[i + 1]?.all fun d => !thaiCType.isCons c ||
        (!decide (d ∈ [0xe24, 0xe30, 0xe31, 0xe32, 0xe34, 0xe35, 0xe38, 0xe39]) && (!thaiCType.isCons d ||
          (u!"แมวเป็นเพื่อน" : U16Str)[i + 2]?.all fun n =>
            !decide (n ∈ [0xe24, 0xe30, 0xe31, 0xe32, 0xe34, 0xe35, 0xe38, 0xe39]) && !thaiCType.isCons n))) = true := by
    decide +kernel
  rintro i ⟨c, d, h1, h2, h3, h4⟩
  by_cases hi : i < 13
  · have h := key i (List.mem_range.mpr hi)
    rw [h1, h3] at h
    simp only [Option.all_some, h2, Bool.not_true, Bool.false_or, Bool.and_eq_true, Bool.or_eq_true, Bool.not_eq_true',
      decide_eq_false_iff_not] at h
    rcases h4 with h4 | ⟨h4, n, h5, h6⟩
    · exact h.1 h4
    · rcases h.2 with h7 | h7
      · rw [h4] at h7; cases h7
      · rw [h5] at h7
        simp only [Option.all_some, Bool.and_eq_true, Bool.not_eq_true', decide_eq_false_iff_not] at h7
        rcases h6 with h6 | h6
        · exact h7.1 h6
        · rw [h7.2] at h6; cases h6
  · rw [List.getElem?_eq_none (by simpa using hi)] at h1
    cases h1

end Thpronun
