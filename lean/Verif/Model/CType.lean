import Verif.Model.ThCons

/-! # libthai character classes (`thai/thwctype.h`)

Library code, not part of `/repo`: a parameter of the model, with the assumptions on it stated in
`CType.Ok`. -/

namespace Thpronun

structure CType where
  isCons : U16 → Bool      -- `th_wcisthcons`
  isTone : U16 → Bool      -- `th_wcisthtone`
  isUpVowel : U16 → Bool   -- `th_wcisupvowel`
  isBlVowel : U16 → Bool   -- `th_wcisblvowel`
  isLdVowel : U16 → Bool   -- `th_wcisldvowel`
  isVowel : U16 → Bool     -- `th_wcisthvowel`

/-- What the proofs assume about libthai's classification (TIS-620 / Unicode Thai block). -/
structure CType.Ok (ct : CType) : Prop where
  cons : ∀ c, ct.isCons c = true → 0x0e01 ≤ c ∧ c ≤ 0x0e2e ∧ c ≠ 0x0e24 ∧ c ≠ 0x0e26
  tone : ∀ c, ct.isTone c = true → 0x0e48 ≤ c ∧ c ≤ 0x0e4b
  up : ∀ c, ct.isUpVowel c = true → c = 0x0e31 ∨ (0x0e34 ≤ c ∧ c ≤ 0x0e39)
  bl : ∀ c, ct.isBlVowel c = true → c = 0x0e31 ∨ (0x0e34 ≤ c ∧ c ≤ 0x0e39)
  ld : ∀ c, ct.isLdVowel c = true → 0x0e40 ≤ c ∧ c ≤ 0x0e44
  vowel : ∀ c, ct.isVowel c = true → 0x0e01 ≤ c ∧ c ≤ 0x0e5b

/-- The classification of libthai 0.1.x for the Thai block (written from its documentation; used
for examples and witnesses only). -/
def thaiCType : CType where
  isCons c := decide (0x0e01 ≤ c) && decide (c ≤ 0x0e2e) && decide (c ≠ 0x0e24) && decide (c ≠ 0x0e26)
  isTone c := decide (0x0e48 ≤ c) && decide (c ≤ 0x0e4b)
  isUpVowel c := decide (c = 0x0e31) || (decide (0x0e34 ≤ c) && decide (c ≤ 0x0e37))
  isBlVowel c := decide (0x0e38 ≤ c) && decide (c ≤ 0x0e39)
  isLdVowel c := decide (0x0e40 ≤ c) && decide (c ≤ 0x0e44)
  isVowel c := decide (c = 0x0e24) || decide (c = 0x0e26)
    || (decide (0x0e30 ≤ c) && decide (c ≤ 0x0e39)) || (decide (0x0e40 ≤ c) && decide (c ≤ 0x0e45))

theorem thaiCType_ok : thaiCType.Ok := by
  constructor <;> intro (c : Nat) h <;> simp [thaiCType] at h <;> omega

end Thpronun
