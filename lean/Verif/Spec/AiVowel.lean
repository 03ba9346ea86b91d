import Verif.Spec.Listed

/-! # Texts that differ in ใ and ไ only -/

namespace Thpronun.Spec

/-- The two signs for "ai". -/
def aiSigns : U16Str := u!"ใไ"

/-- Both are leading vowels, and vowels. -/
def AiClassed (ct : CType) : Prop := ∀ c ∈ aiSigns, ct.isLdVowel c = true ∧ ct.isVowel c = true

/-- Character by character the same, except for the two signs. -/
def AiExchange (w w' : U16Str) : Prop :=
  w.length = w'.length ∧ ∀ i : Nat, w[i]? = w'[i]? ∨ ∃ c ∈ aiSigns, ∃ c' ∈ aiSigns, w[i]? = some c ∧ w'[i]? = some c'

/-- Where ไ has become ใ, no ย stands at the places where it is silent after ไ: two, three or four characters on. -/
def NoSilentYo (w w' : U16Str) : Prop :=
  ∀ i : Nat, w[i]? = some ch!"ไ" → w'[i]? = some ch!"ใ" → ∀ k : Nat, i + 2 ≤ k → k ≤ i + 4 → w[k]? ≠ some ch!"ย"

end Thpronun.Spec
