import Verif.Spec.Listed

/-! # Texts that differ in their tone marks only -/

namespace Thpronun.Spec

/-- Character by character the same, except that tone marks may be exchanged for other tone marks. -/
def Exchanged (ct : CType) (w w' : U16Str) : Prop :=
  List.Forall₂ (fun c c' => c = c' ∨ (ct.isTone c = true ∧ ct.isTone c' = true)) w w'

/-- Where the text `w` has the mark `m`, `w'` has the mark `m'`, somewhere between the nodes `a` and `b`. -/
def MarksBetween (w w' : U16Str) (a b : Int) (m m' : Tone) : Prop :=
  ∃ (q : Nat) (c c' : Nat), place a ≤ 2 * (q : Int) ∧ 2 * (q : Int) < place b ∧ w[q]? = some c ∧ w'[q]? = some c' ∧
    (c, m) ∈ marks ∧ (c', m') ∈ marks

/-- The syllable `x` from `a` to `b` is read as `x'` in the other text: it is the same, or it bears one of the marks
exchanged, and the tone follows the tone rules for the one mark and for the other. -/
def Retoned (w w' : U16Str) (a b : Int) (x x' : Syl) : Prop :=
  ceq x x' = true ∨ ∃ cls m m', MarksBetween w w' a b m m' ∧ x.literal = [] ∧
    x.tone = spokenTone cls x.vowel x.eCons m ∧
    ceq x' { x with tone := spokenTone cls x.vowel x.eCons m' } = true

/-- Pronunciations from the node `a` on, syllable by syllable between the same nodes. -/
def RetonedPron (w w' : U16Str) (a : Int) : List Syl → List Syl → Prop
  | [], [] => True
  | x :: s, x' :: s' => x'.endPos = x.endPos ∧ Retoned w w' a x.endPos x x' ∧ RetonedPron w w' x.endPos s s'
  | _, _ => False

end Thpronun.Spec
