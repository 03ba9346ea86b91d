import Verif.Spec.Listed

/-! # Texts that differ in foreign characters only -/

namespace Thpronun.Spec

/-- A character that is neither Thai writing nor a period nor a space. -/
def Foreign (ct : CType) (c : Nat) : Prop := ¬ IsText ct c ∧ ct.isLdVowel c = false ∧ c ≠ ch!" "

/-- Character by character the same, except that foreign characters may be exchanged for each other. -/
def ForeignExchange (ct : CType) (w w' : U16Str) : Prop :=
  w.length = w'.length ∧ ∀ i : Nat, w[i]? = w'[i]? ∨
    ∃ c c', w[i]? = some c ∧ w'[i]? = some c' ∧ Foreign ct c ∧ Foreign ct c'

/-- The syllable `s`, which begins at the node `a`, with its literal text (if it has any) taken from `w`. -/
def withText (w : U16Str) (a : Int) (s : Syl) : Syl :=
  { s with literal := piece w a.toNat (a.toNat + s.literal.length) }

/-- The pronunciation, which begins at the node `a`, with all literal text taken from `w`. -/
def withTexts (w : U16Str) : Int → List Syl → List Syl
  | _, [] => []
  | a, s :: ss => withText w a s :: withTexts w s.endPos ss

end Thpronun.Spec
