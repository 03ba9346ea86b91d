import Verif.Model.Dag
import Mathlib.Logic.Relation

/-! # What a DAG is supposed to be: a set of labelled edges -/

namespace Thpronun

/-- `operator==` of the label type is an equivalence (proved for `Syl`, `SylString` and
`PronunFrac`, the types the code uses). -/
class LawfulCppEq (V : Type u) [CppEq V] : Prop where
  refl : ∀ a : V, ceq a a = true
  symm : ∀ {a b : V}, ceq a b = true → ceq b a = true
  trans : ∀ {a b c : V}, ceq a b = true → ceq b c = true → ceq a c = true

namespace Spec
variable {V : Type u} [CppEq V]

/-- Histories of DAG operations: every DAG a program can build. -/
inductive Built : DAG V → Prop
  | empty : Built DAG.empty
  | addEdge {d} (u v : Int) (x : V) : Built d → Built (d.addEdge u v x).1
  | removeEdge {d} (u v : Int) (x : V) : Built d → Built (d.removeEdge u v x).1
  | removeDirectEdges {d} (u v : Int) : Built d → Built (d.removeDirectEdges u v).1
  | unionDAG {d e} : Built d → Built e → Built (d.unionDAG e)

/-- The set of edges of a DAG, seen through the outgoing view: an edge from `u` to `v` with a label
equal to `x`. -/
def Edge (d : DAG V) (u v : Int) (x : V) : Prop :=
  ∃ e ∈ d.outEdges u, e.target = v ∧ ceq e.val x = true

/-- The same through the incoming view. -/
def EdgeIn (d : DAG V) (u v : Int) (x : V) : Prop :=
  ∃ e ∈ d.inEdges v, e.target = u ∧ ceq e.val x = true

/-- `l` lists each element of the set `P` of edges at a node exactly once, up to `==`. -/
structure Lists (l : List (Int × V)) (P : Int → V → Prop) : Prop where
  mem : ∀ v x, P v x ↔ ∃ e ∈ l, e.1 = v ∧ ceq e.2 x = true
  distinct : l.Pairwise fun a b => ¬ (a.1 = b.1 ∧ ceq a.2 b.2 = true)

/-! ## Paths -/

variable {V : Type u}

/-- There is an edge from `u` to `v`. -/
def Arrow (d : DAG V) (u v : Int) : Prop := ∃ e ∈ d.outEdges u, e.target = v

/-- No node can be reached from itself. -/
def Acyclic (d : DAG V) : Prop := ∀ n, ¬ Relation.TransGen (Arrow d) n n

/-- `p` is a path from `n` to a node without outgoing edges, with at least one edge. -/
inductive MaxPath (d : DAG V) : Int → List (Entry V) → Prop
  | last {n : Int} {e : Entry V} : e ∈ d.outEdges n → d.outEdges e.target = [] → MaxPath d n [e]
  | step {n : Int} {e : Entry V} {p : List (Entry V)} :
      e ∈ d.outEdges n → MaxPath d e.target p → MaxPath d n (e :: p)

/-- The syllable `x` leads from `u` to `v` in the string `s`, begun at position 0. -/
def StringEdge (s : List Syl) (u v : Int) (x : Syl) : Prop :=
  ∃ p r, s = p ++ x :: r ∧ v = x.endPos ∧ u = (match p.getLast? with | none => 0 | some y => y.endPos)

end Spec
end Thpronun
