import Verif.Spec.Output

/-! # Neighbours that romanization runs together -/

namespace Thpronun.Spec

/-- `b` after `a` is written, in the Roman notation, with letters that can also be the onset of `b` alone: final k, t, p
before h (kh, th, ph), and final k, t, p, n, m before a single r, l, w (kr, kl, …, mw). -/
def Blurred (a b : Syl) : Prop :=
  (b.iCons1 = .HA ∧ a.eCons ∈ [EndConsClass.KOK, .KOT, .KOP]) ∨
  (b.iCons1 ∈ [InitConsSound.RA, .LA, .WA] ∧ b.iCons2 = SC.NONE ∧
    a.eCons ∈ [EndConsClass.KOK, .KOT, .KOP, .KON, .KOM])

instance (a b) : Decidable (Blurred a b) := by unfold Blurred; infer_instance

/-- Neighbours in a pronunciation, from left to right, are all in the relation. -/
def Neighbours (R : Syl → Syl → Prop) : List Syl → Prop
  | [] => True
  | [_] => True
  | a :: b :: r => R a b ∧ Neighbours R (b :: r)

instance decNeighbours (R) [DecidableRel R] : ∀ l, Decidable (Neighbours R l)
  | [] => isTrue trivial
  | [_] => isTrue trivial
  | a :: b :: r => by
    have := decNeighbours R (b :: r)
    unfold Neighbours
    infer_instance

end Thpronun.Spec
