import Verif.Spec.Reading

/-! # Word breaks that cut no spelling -/

namespace Thpronun.Spec

/-- The break at `t` stands between syllables whichever way the text is read: it cuts no dictionary word and no
abbreviation, a syllable can start behind it, and none of the spellings that depend on what follows (or on nothing
following) lies around it. -/
structure SoftBreak (ct : CType) (w : U16Str) (look : List Nat → Option Str) (t : Nat) : Prop where
  /-- A consonant or a leading vowel follows. -/
  start : StartAt ct w w.length t
  /-- Nothing silenced follows. -/
  loud : w[t + 1]? ≠ some ch!"์" ∧ w[t + 2]? ≠ some ch!"์"
  /-- Before it stands no leading vowel, no ◌ื, and no ฤ or ฦ. -/
  before : ∀ i c, i + 1 = t → w[i]? = some c → ct.isLdVowel c = false ∧ c ∉ u!"ฤฦื"
  /-- … and no ◌ื with a tone mark. -/
  uee : ∀ i c, i + 2 = t → w[i]? = some ch!"ื" → w[i + 1]? = some c → ct.isTone c = false
  /-- It does not cut รร. -/
  rr : ∀ i, i + 1 = t → ¬ (w[i]? = some ch!"ร" ∧ w[t]? = some ch!"ร")
  /-- It does not cut เ◌ย. -/
  ey : ∀ i, i < t → t ≤ i + 4 → w[i]? = some ch!"เ" → w[t]? = some ch!"ย" →
    TextAt ct w (t + 1) ∧ ¬ StartAt ct w w.length (t + 1)
  /-- Before it does not stand เ◌อ with a tone mark. -/
  eoa : ∀ i c, i + 4 = t → w[i]? = some ch!"เ" → w[i + 2]? = some ch!"อ" → w[i + 3]? = some c → ct.isTone c = false
  /-- It cuts no abbreviation. -/
  abbr : ∀ p q, p < t → t < q → ¬ IsAbbr ct w p w.length q
  /-- Before it stands no consonant alone at the beginning of the text or after a space or a period. -/
  alone : ∀ i c, i + 1 = t → (i = 0 ∨ w[i - 1]? = some ch!" " ∨ w[i - 1]? = some ch!".") → w[i]? = some c →
    ct.isCons c = false
  /-- It cuts no dictionary word. -/
  word : ∀ p q, p < t → t < q → q ≤ w.length → look (piece w p q) = none

end Thpronun.Spec
