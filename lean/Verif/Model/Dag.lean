import Verif.Model.SylString

/-! # The generic DAG: `lattice/dag.h`, `lattice/dag.inl` -/

namespace Thpronun

/-- One element of `std::multimap<int, DAGEdge<V>>` (dag.h:14-23, 62-63). -/
structure Entry (V : Type u) where
  key : Int
  target : Int
  val : V
  deriving DecidableEq, Repr

/-- dag.h:25-64: the two redundant multimaps, in iteration order. -/
structure DAG (V : Type u) where
  mFrom : List (Entry V)
  mTo : List (Entry V)
  deriving DecidableEq, Repr

namespace DAG
variable {V : Type u}

/-- `multimap::emplace`: inserted at the upper bound of the key (after equal keys, C++11). -/
def mmEmplace (l : List (Entry V)) (e : Entry V) : List (Entry V) :=
  match l with
  | [] => [e]
  | x :: xs => if x.key ≤ e.key then x :: mmEmplace xs e else e :: x :: xs

/-- `multimap::equal_range` as the list of elements (the multimap is sorted by key). -/
def equalRange (l : List (Entry V)) (k : Int) : List (Entry V) := l.filter fun x => x.key = k

/-- dag.inl:30-32 -/
def empty : DAG V := ⟨[], []⟩

/-- dag.inl:70-76 -/
def outEdges (d : DAG V) (n : Int) : List (Entry V) := equalRange d.mFrom n
/-- dag.inl:78-84 -/
def inEdges (d : DAG V) (n : Int) : List (Entry V) := equalRange d.mTo n
/-- dag.inl:56-61 -/
def outDegree (d : DAG V) (n : Int) : Nat := (outEdges d n).length
/-- dag.inl:63-68 -/
def inDegree (d : DAG V) (n : Int) : Nat := (inEdges d n).length

variable [CppEq V]

/-- The loop condition of dag.inl:48, 172, 181. -/
def isMatch (target : Int) (v : V) (x : Entry V) : Bool :=
  decide (x.target = target) && ceq x.val v

/-- dag.inl:42-54 -/
def isEdgeExist (d : DAG V) (src dst : Int) (v : V) : Bool :=
  (equalRange d.mFrom src).any (isMatch dst v)

/-- dag.inl:151-162 -/
def addEdge (d : DAG V) (src dst : Int) (v : V) : DAG V × Bool :=
  if isEdgeExist d src dst v then (d, false)
  else (⟨mmEmplace d.mFrom ⟨src, dst, v⟩, mmEmplace d.mTo ⟨dst, src, v⟩⟩, true)

/-- Erase the first element of the range of `k` that matches (dag.inl:170-177, 179-186). -/
def eraseFirst (l : List (Entry V)) (k target : Int) (v : V) : List (Entry V) :=
  l.eraseP fun x => decide (x.key = k) && isMatch target v x

/-- dag.inl:164-189 -/
def removeEdge (d : DAG V) (src dst : Int) (v : V) : DAG V × Bool :=
  let r1 := (equalRange d.mFrom src).any (isMatch dst v)
  let r2 := (equalRange d.mTo dst).any (isMatch src v)
  (⟨eraseFirst d.mFrom src dst v, eraseFirst d.mTo dst src v⟩, r1 || r2)

omit [CppEq V] in
/-- Erase all elements of the range of `k` with the given target (dag.inl:197-205, 207-215). -/
def eraseAll (l : List (Entry V)) (k target : Int) : List (Entry V) :=
  l.filter fun x => !(decide (x.key = k) && decide (x.target = target))

omit [CppEq V] in
/-- dag.inl:191-218 -/
def removeDirectEdges (d : DAG V) (src dst : Int) : DAG V × Bool :=
  let r1 := (equalRange d.mFrom src).any fun x => x.target = dst
  let r2 := (equalRange d.mTo dst).any fun x => x.target = src
  (⟨eraseAll d.mFrom src dst, eraseAll d.mTo dst src⟩, r1 || r2)

/-- dag.inl:220-227 -/
def unionDAG (d other : DAG V) : DAG V :=
  other.mFrom.foldl (fun acc x => (addEdge acc x.key x.target x.val).1) d

end DAG

/-- `PronunDAG` (pron-dag.h:35-43) adds no data members to `DAG<Syl>`. -/
abbrev PronunDAG := DAG Syl

end Thpronun
