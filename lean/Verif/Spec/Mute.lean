import Verif.Spec.Listed

/-! # Texts that differ in their silenced letters only -/

namespace Thpronun.Spec

/-- A consonant that can be a final consonant, other than ร. -/
def Mutable (ct : CType) (c : Nat) : Prop :=
  ct.isCons c = true ∧ c ≠ ch!"ร" ∧ ∃ f, f ≠ EndConsClass.NONE ∧ c ∈ finalLetters f

/-- Character by character the same, except that a letter of the kind `A` under thanthakhat may be another one of this
kind. -/
def SilentExchange (A : Nat → Prop) (w w' : U16Str) : Prop :=
  w.length = w'.length ∧ ∀ i : Nat, w[i]? = w'[i]? ∨ ∃ c c', w[i]? = some c ∧ w'[i]? = some c' ∧ A c ∧ A c' ∧
    w[i + 1]? = some ch!"์" ∧ w'[i + 1]? = some ch!"์"

/-- The word begins with thanthakhat, or with a letter under thanthakhat. -/
def BeginsSilent (x : U16Str) : Prop := x[0]? = some ch!"์" ∨ x[1]? = some ch!"์"

end Thpronun.Spec
