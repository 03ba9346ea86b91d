import Verif.Lemmas.AdjacentWords

/-! # The pairs of another character and a consonant, or two other characters -/

namespace Thpronun.Side
open Spec

theorem shown_before : ∀ a ∈ others, ∀ b ∈ consonants, Follows a b → shown a b = true := by decide +kernel

theorem shown_others : ∀ a ∈ others, ∀ b ∈ others, Follows a b → shown a b = true := by decide +kernel

end Thpronun.Side
