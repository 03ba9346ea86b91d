import Verif.Spec.Dag
import Verif.Model.PronDag

/-! # Parts of a graph that go round -/

namespace Thpronun.Spec

/-- A ring: a part of the graph in which every node has exactly one edge, which leads to the ring, and is reached by exactly
one edge, which comes from the ring. (The edges of `inEdges` point backwards.) -/
def RingPart (d : PronunDAG) (L : Int → Prop) : Prop :=
  (∃ v, L v) ∧ ∀ v, L v → (∃ e, d.outEdges v = [e] ∧ L e.target) ∧ ∃ e, d.inEdges v = [e] ∧ L e.target

/-- A part of the graph that stands for itself and has neither beginning nor end: every node has an edge and is reached by an
edge, and all edges from and to its nodes stay in it. -/
def Endless (d : PronunDAG) (L : Int → Prop) : Prop :=
  (∃ v, L v) ∧ ∀ v, L v → (∃ x, Arrow d v x) ∧ (∃ u, Arrow d u v) ∧ (∀ x, Arrow d v x → L x) ∧ ∀ u, Arrow d u v → L u

/-- The edges of a node bear different syllables, unless they have the same target. -/
def Unequivocal (d : PronunDAG) : Prop :=
  ∀ u, ∀ e ∈ d.outEdges u, ∀ e' ∈ d.outEdges u, ceq e.val e'.val = true → e.target = e'.target

end Thpronun.Spec
