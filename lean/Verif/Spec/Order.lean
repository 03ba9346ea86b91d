import Verif.Spec.Dag

/-! # A DAG as the list of its edges in the order in which they were added -/

namespace Thpronun.Spec
variable {V : Type u}

/-- The DAG shows the edges of the list, from both ends, in the order of the list. -/
def Shows (d : DAG V) (l : List (Int × Int × V)) : Prop :=
  (∀ n, d.outEdges n = (l.filter fun e => e.1 = n).map fun e => ⟨e.1, e.2.1, e.2.2⟩) ∧
  (∀ n, d.inEdges n = (l.filter fun e => e.2.1 = n).map fun e => ⟨e.2.1, e.1, e.2.2⟩)

/-- An edge with an equal label is in the list. -/
def has [CppEq V] (l : List (Int × Int × V)) (u v : Int) (x : V) : Bool :=
  l.any fun e => decide (e.1 = u) && decide (e.2.1 = v) && ceq e.2.2 x

/-- A new edge goes to the end. -/
def added [CppEq V] (l : List (Int × Int × V)) (u v : Int) (x : V) : List (Int × Int × V) :=
  if has l u v x then l else l ++ [(u, v, x)]

/-- `a` stands before `b` in the list. -/
def Before {α : Type u} (l : List α) (a b : α) : Prop := ∃ p q, l = p ++ q ∧ a ∈ p ∧ b ∈ q

/-- Where the paths part, `p` takes an edge that stands before that of `q` among the edges of the node. -/
def PathBefore (d : DAG V) (p q : List (Entry V)) : Prop :=
  ∃ pre e f p' q', p = pre ++ e :: p' ∧ q = pre ++ f :: q' ∧ e.key = f.key ∧ Before (d.outEdges e.key) e f

end Thpronun.Spec
