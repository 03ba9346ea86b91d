import Verif.Spec.Breaks

/-! # The conditions on a break, one by one -/

namespace Thpronun.Spec

/-- The conditions of `SoftBreak`, taken apart. -/
def softClauses (ct : CType) (w : U16Str) (look : List Nat → Option Str) (t : Nat) : List Prop :=
  [ StartAt ct w w.length t,
    w[t + 1]? ≠ some ch!"์",
    w[t + 2]? ≠ some ch!"์",
    ∀ i c, i + 1 = t → w[i]? = some c → ct.isLdVowel c = false,
    ∀ i, i + 1 = t → w[i]? ≠ some ch!"ฤ",
    ∀ i, i + 1 = t → w[i]? ≠ some ch!"ฦ",
    ∀ i, i + 1 = t → w[i]? ≠ some ch!"ื",
    ∀ i c, i + 2 = t → w[i]? = some ch!"ื" → w[i + 1]? = some c → ct.isTone c = false,
    ∀ i, i + 1 = t → ¬ (w[i]? = some ch!"ร" ∧ w[t]? = some ch!"ร"),
    ∀ i, i + 2 = t → w[i]? = some ch!"เ" → w[t]? = some ch!"ย" → TextAt ct w (t + 1) ∧ ¬ StartAt ct w w.length (t + 1),
    ∀ i, i + 3 = t → w[i]? = some ch!"เ" → w[t]? = some ch!"ย" → TextAt ct w (t + 1) ∧ ¬ StartAt ct w w.length (t + 1),
    ∀ i, i + 4 = t → w[i]? = some ch!"เ" → w[t]? = some ch!"ย" → TextAt ct w (t + 1) ∧ ¬ StartAt ct w w.length (t + 1),
    ∀ i c, i + 4 = t → w[i]? = some ch!"เ" → w[i + 2]? = some ch!"อ" → w[i + 3]? = some c → ct.isTone c = false,
    ∀ p q, p < t → t < q → ¬ IsAbbr ct w p w.length q,
    ∀ i c, i + 1 = t → (i = 0 ∨ w[i - 1]? = some ch!" " ∨ w[i - 1]? = some ch!".") → w[i]? = some c →
      ct.isCons c = false,
    ∀ p q, p < t → t < q → q ≤ w.length → look (piece w p q) = none ]

end Thpronun.Spec
