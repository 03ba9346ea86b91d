import Verif.Lemmas.AdjacentWords

/-! # The pairs of a consonant and another character -/

namespace Thpronun.Side
open Spec

theorem shown_after : ∀ a ∈ consonants, ∀ b ∈ others, Follows a b → shown a b = true := by decide +kernel

end Thpronun.Side
