import Verif.Spec.Parser

/-! # Where an assertion fails -/

namespace Thpronun.Spec

/-- A partial reading comes to a leading vowel other than SARA E that is the last letter of its token: the end of the text,
a word break or a character that is no part of a word follows. (No word of the dictionary starts there.) -/
def Trips (ct : CType) (w : U16Str) (look : List Nat → Option Str) (brk : List Int) (c : Config) : Prop :=
  Deriv ct w look brk c ∧ IsStop ct w brk c.pos (c.pos + 1) ∧ Plain ct w look c.pos (c.pos + 1) ∧
    ∃ x, w[c.pos]? = some x ∧ ct.isLdVowel x = true ∧ x ≠ ch!"เ"

end Thpronun.Spec
