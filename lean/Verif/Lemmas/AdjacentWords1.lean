import Verif.Lemmas.AdjacentWords

/-! # The pairs of two consonants -/

namespace Thpronun.Side
open Spec

theorem shown_cons : ∀ a ∈ consonants, ∀ b ∈ consonants, shown a b = true := by decide +kernel

end Thpronun.Side
