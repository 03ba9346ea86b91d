import Verif.Spec.Reading

/-! # Where numbers leave the range of `int` -/

namespace Thpronun.Spec

/-- Not a value of a 32-bit `int`. -/
def NoInt (x : Int) : Prop := x < -2147483648 ∨ 2147483647 < x

/-- A partial reading from which a step leads too far: a dictionary word stands there (at its end a syllable may start), one of
whose readings has a syllable whose end, moved to the place of the word, is no `int`; or, where there is neither word nor
abbreviation, a syllable can be read that has a pre-syllable, and a hundred times its beginning plus its end is no `int`. -/
def TooFar (ct : CType) (w : U16Str) (look : List Nat → Option Str) (brk : List Int) (c : Config) : Prop :=
  RuleDeriv ct w look brk c ∧ ∃ t, TokenTo ct w brk c.pos t ∧
    ((∃ q data strs str s, WordAt ct w look c.pos t q data ∧ DataIs data strs ∧ str ∈ strs ∧ s ∈ str ∧ NoInt (movedEnd c.pos s.endPos)) ∨
     ((∀ q data, ¬ WordAt ct w look c.pos t q data) ∧ (∀ q, ¬ IsAbbr ct w c.pos t q) ∧
       ∃ o r, Spelled ct w t c.pos c.linked o r ∧ o.pre ≠ none ∧ NoInt (100 * c.pos + r.stop)))

end Thpronun.Spec
