import Verif.Spec.Listed

/-! # Texts that differ in the sign of length after ฤ and ฦ only -/

namespace Thpronun.Spec

/-- The two ways to write the length: lakkhangyao, and SARA AA in its place. -/
def ruTails : U16Str := u!"ๅา"

/-- Both are vowels. -/
def RuClassed (ct : CType) : Prop := ∀ c ∈ ruTails, ct.isVowel c = true

/-- Character by character the same, except for the two signs directly after ฤ or ฦ. -/
def RuExchange (w w' : U16Str) : Prop :=
  w.length = w'.length ∧ ∀ i : Nat, w[i]? = w'[i]? ∨
    ∃ c ∈ ruTails, ∃ c' ∈ ruTails, w[i]? = some c ∧ w'[i]? = some c' ∧ ∃ j, i = j + 1 ∧ ∃ r ∈ u!"ฤฦ", w[j]? = some r

end Thpronun.Spec
