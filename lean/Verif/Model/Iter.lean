import Verif.Model.Parser
import Verif.Model.Loop

/-! # Containers with iterators

The other files of the model take the standard containers for lists. Here the elements have identities, an iterator
names an element (or the end), and an iterator to an erased element cannot be used: to dereference, increment, compare or
erase it is undefined. The loops of the program that insert or erase while they iterate are repeated statement by
statement on such containers. (`std::list` and `std::multimap`: nodes never move, insertion invalidates no iterator,
erasure only those to the element erased; an iterator once invalid stays so, hence identities are not used again.)

Loops over containers that nobody changes meanwhile are not repeated (`nodeLattice`, `DAGSylStrings`, the outputs). -/

namespace Thpronun

/-- An iterator. -/
inductive It where
  | node (a : Nat)
  | fin
  deriving DecidableEq, Repr

/-- A container: its elements in order, with their identities, and the first identity not yet used. -/
structure Cont (α : Type) where
  cells : List (Nat × α)
  fresh : Nat

namespace Cont
variable {α : Type}

/-- The iterator to the first of these elements. -/
def hd : List (Nat × α) → It
  | [] => .fin
  | x :: _ => .node x.1

/-- The iterator behind the element `a`, if there is one. -/
def after (a : Nat) : List (Nat × α) → Option It
  | [] => none
  | x :: r => if x.1 = a then some (hd r) else after a r

/-- The iterator can be used. -/
def has (c : Cont α) : It → Bool
  | .fin => true
  | .node a => (after a c.cells).isSome

/-- An empty container. -/
def new : Cont α := ⟨[], 0⟩

/-- `begin()`; `end()` is `It.fin`. -/
def first (c : Cont α) : It := hd c.cells

/-- `*it` -/
def get (c : Cont α) : It → Res α
  | .fin => .ub
  | .node a =>
    match c.cells.find? fun x => x.1 = a with
    | some x => .ok x.2
    | none => .ub

/-- `*it = x` -/
def set (c : Cont α) (i : It) (x : α) : Res (Cont α) :=
  match i with
  | .fin => .ub
  | .node a =>
    if c.has (.node a) then .ok ⟨c.cells.map fun y => if y.1 = a then (a, x) else y, c.fresh⟩ else .ub

/-- `++it` -/
def next (c : Cont α) : It → Res It
  | .fin => .ub
  | .node a =>
    match after a c.cells with
    | some i => .ok i
    | none => .ub

/-- `i == j` -/
def same (c : Cont α) (i j : It) : Res Bool :=
  if c.has i && c.has j then .ok (decide (i = j)) else .ub

/-- `erase (it)`, with the iterator behind the element -/
def erase (c : Cont α) : It → Res (Cont α × It)
  | .fin => .ub
  | .node a =>
    match after a c.cells with
    | some i => .ok (⟨c.cells.eraseP fun x => x.1 = a, c.fresh⟩, i)
    | none => .ub

/-- The new element `y` before the element of `i`. -/
def putBefore (i : It) (y : Nat × α) : List (Nat × α) → List (Nat × α)
  | [] => [y]
  | x :: r => if i = .node x.1 then y :: x :: r else x :: putBefore i y r

/-- `list::insert (it, x)` -/
def insert (c : Cont α) (i : It) (x : α) : Res (Cont α) :=
  if c.has i then .ok ⟨putBefore i (c.fresh, x) c.cells, c.fresh + 1⟩ else .ub

/-- `push_back` -/
def pushBack (c : Cont α) (x : α) : Cont α := ⟨c.cells ++ [(c.fresh, x)], c.fresh + 1⟩

/-! ## `std::multimap` -/
variable {V : Type}

/-- The new element behind all elements whose keys are not greater. -/
def putUpper (y : Nat × Entry V) : List (Nat × Entry V) → List (Nat × Entry V)
  | [] => [y]
  | x :: r => if x.2.key ≤ y.2.key then x :: putUpper y r else y :: x :: r

/-- `multimap::emplace` -/
def emplace (c : Cont (Entry V)) (e : Entry V) : Cont (Entry V) := ⟨putUpper (c.fresh, e) c.cells, c.fresh + 1⟩

/-- `multimap::equal_range`: the first element not less, and the first greater. -/
def range (c : Cont (Entry V)) (k : Int) : It × It :=
  (hd (c.cells.dropWhile fun x => decide (x.2.key < k)), hd (c.cells.dropWhile fun x => decide (x.2.key ≤ k)))

/-- `multimap::count` -/
def count (c : Cont (Entry V)) (k : Int) : Nat := (c.cells.filter fun x => x.2.key = k).length

end Cont

/-- dag.h:62-63 -/
structure IDag (V : Type) where
  mFrom : Cont (Entry V)
  mTo : Cont (Entry V)

namespace IDag
variable {V : Type}

/-- dag.inl:30-32 -/
def new : IDag V := ⟨Cont.new, Cont.new⟩

/-- dag.inl:56-61 -/
def outDegree (d : IDag V) (n : Int) : Nat := d.mFrom.count n
/-- dag.inl:63-68 -/
def inDegree (d : IDag V) (n : Int) : Nat := d.mTo.count n

variable [CppEq V]

/-- Body of the loop of dag.inl:47-51 -/
def existStep (c : Cont (Entry V)) (last : It) (to : Int) (v : V) (it : It) : Res (It ⊕ Bool) := do
  if ← c.same it last then pure (.inr false)
  else
    let x ← c.get it
    if x.target = to && ceq x.val v then pure (.inr true)
    else pure (.inl (← c.next it))

/-- dag.inl:42-54 -/
noncomputable def isEdgeExist (d : IDag V) (src dst : Int) (v : V) : Res Bool :=
  let r := d.mFrom.range src
  whileLoop (existStep d.mFrom r.2 dst v) r.1

/-- dag.inl:151-162 -/
noncomputable def addEdge (d : IDag V) (src dst : Int) (v : V) : Res (IDag V) := do
  if ← d.isEdgeExist src dst v then pure d
  else pure ⟨d.mFrom.emplace ⟨src, dst, v⟩, d.mTo.emplace ⟨dst, src, v⟩⟩

/-- Bodies of the loops of dag.inl:171-177 and 180-186 -/
def eraseStep (last : It) (to : Int) (v : V) (st : Cont (Entry V) × It) :
    Res ((Cont (Entry V) × It) ⊕ Cont (Entry V)) := do
  let (c, it) := st
  if ← c.same it last then pure (.inr c)
  else
    let x ← c.get it
    if x.target = to && ceq x.val v then
      let (c, _) ← c.erase it
      pure (.inr c)
    else pure (.inl (c, ← c.next it))

/-- dag.inl:170-177, 179-186 -/
noncomputable def eraseFirst (c : Cont (Entry V)) (k to : Int) (v : V) : Res (Cont (Entry V)) :=
  let r := c.range k
  whileLoop (eraseStep r.2 to v) (c, r.1)

/-- dag.inl:164-189; the label is a parameter by value, so that it outlives the element it comes from. -/
noncomputable def removeEdge (d : IDag V) (src dst : Int) (v : V) : Res (IDag V) := do
  let f ← eraseFirst d.mFrom src dst v
  let t ← eraseFirst d.mTo dst src v
  pure ⟨f, t⟩

omit [CppEq V] in
/-- Bodies of the loops of dag.inl:198-205 and 208-215: `erase (it++)` -/
def eraseAllStep (last : It) (to : Int) (st : Cont (Entry V) × It) :
    Res ((Cont (Entry V) × It) ⊕ Cont (Entry V)) := do
  let (c, it) := st
  if ← c.same it last then pure (.inr c)
  else
    let x ← c.get it
    if x.target = to then
      let old := it
      let it ← c.next it
      let (c, _) ← c.erase old
      pure (.inl (c, it))
    else pure (.inl (c, ← c.next it))

omit [CppEq V] in
/-- dag.inl:197-205, 207-215 -/
noncomputable def eraseAll (c : Cont (Entry V)) (k to : Int) : Res (Cont (Entry V)) :=
  let r := c.range k
  whileLoop (eraseAllStep r.2 to) (c, r.1)

omit [CppEq V] in
/-- dag.inl:191-218 -/
noncomputable def removeDirectEdges (d : IDag V) (src dst : Int) : Res (IDag V) := do
  let f ← eraseAll d.mFrom src dst
  let t ← eraseAll d.mTo dst src
  pure ⟨f, t⟩

/-- Body of the loop of dag.inl:224-226 (`other` is another object) -/
noncomputable def unionStep (other : IDag V) (st : IDag V × It) : Res ((IDag V × It) ⊕ IDag V) := do
  let (d, it) := st
  if ← other.mFrom.same it .fin then pure (.inr d)
  else
    let x ← other.mFrom.get it
    let d ← d.addEdge x.key x.target x.val
    pure (.inl (d, ← other.mFrom.next it))

/-- dag.inl:220-227 -/
noncomputable def unionDAG (d other : IDag V) : Res (IDag V) := whileLoop (unionStep other) (d, other.mFrom.first)

end IDag

namespace IFrac

/-- `*frac.begin()` -/
def firstAlt (f : PronunFrac) : Res SylString :=
  match f.alts with
  | [] => .ub
  | a :: _ => .ok a

/-- pron-dag.cxx:42-55 -/
noncomputable def mergeAt (d : IDag PronunFrac) (it : It) : Res (IDag PronunFrac) := do
  -- find preceeding & succeeding nodes and merged SylString
  let inIt := (d.mTo.range (← d.mFrom.get it).key).1
  let srcNode := (← d.mTo.get inIt).target
  let dstNode := (← d.mFrom.get it).target
  let a ← firstAlt (← d.mTo.get inIt).val
  let b ← firstAlt (← d.mFrom.get it).val
  let mergedStr := a ++ b
  -- remove old edges & add the merged one
  let d ← d.removeEdge srcNode (← d.mFrom.get it).key (← d.mTo.get inIt).val
  let d ← d.removeEdge (← d.mFrom.get it).key dstNode (← d.mFrom.get it).val
  d.addEdge srcNode dstNode (PronunFrac.single dstNode mergedStr)

/-- Body of the loop of pron-dag.cxx:40-59 -/
noncomputable def singlesStep (st : IDag PronunFrac × It) : Res ((IDag PronunFrac × It) ⊕ IDag PronunFrac) := do
  let (d, it) := st
  if ← d.mFrom.same it .fin then pure (.inr d)
  else
    let x ← d.mFrom.get it
    if d.outDegree x.key = 1 && d.inDegree x.key = 1 then
      let d ← mergeAt d it
      pure (.inl (d, d.mFrom.first))
    else pure (.inl (d, ← d.mFrom.next it))

/-- `FracDAG::mergeSingles`, pron-dag.cxx:37-60 -/
noncomputable def mergeSingles (d : IDag PronunFrac) : Res (IDag PronunFrac) :=
  whileLoop singlesStep (d, d.mFrom.first)

/-- Body of the loop of pron-dag.cxx:77-82 -/
def gatherStep (c : Cont (Entry PronunFrac)) (last : It) (to : Int) (st : It × PronunFrac × Nat) :
    Res ((It × PronunFrac × Nat) ⊕ (PronunFrac × Nat)) := do
  let (outIt, mergedFrac, edgeCount) := st
  if ← c.same outIt last then pure (.inr (mergedFrac, edgeCount))
  else
    let x ← c.get outIt
    if x.target = to then pure (.inl (← c.next outIt, mergedFrac.addFrac x.val, edgeCount + 1))
    else pure (.inl (← c.next outIt, mergedFrac, edgeCount))

/-- Body of the loop of pron-dag.cxx:65-91 -/
noncomputable def parallelsStep (st : IDag PronunFrac × It) : Res ((IDag PronunFrac × It) ⊕ IDag PronunFrac) := do
  let (d, it) := st
  if ← d.mFrom.same it .fin then pure (.inr d)
  else
    let src := (← d.mFrom.get it).key
    let to := (← d.mFrom.get it).target
    if d.outDegree src = 1 then pure (.inl (d, ← d.mFrom.next it))
    else
      let r := d.mFrom.range src
      let (mergedFrac, edgeCount) ← whileLoop (gatherStep d.mFrom r.2 to) (r.1, PronunFrac.empty, 0)
      if edgeCount > 1 then
        let d ← d.removeDirectEdges src to
        let d ← d.addEdge src to mergedFrac
        let it := d.mFrom.first
        pure (.inl (d, ← d.mFrom.next it))
      else pure (.inl (d, ← d.mFrom.next it))

/-- `FracDAG::mergeParallels`, pron-dag.cxx:62-92 -/
noncomputable def mergeParallels (d : IDag PronunFrac) : Res (IDag PronunFrac) :=
  whileLoop parallelsStep (d, d.mFrom.first)

/-- `mergeFractions`, pron-dag.cxx:25-35 -/
noncomputable def mergeFractions (d : IDag PronunFrac) : Res (IDag PronunFrac) := do
  mergeParallels (← mergeSingles d)

/-- Body of the loop of pron-dag.cxx:157-162 -/
noncomputable def toFracStep (d : IDag Syl) (st : IDag PronunFrac × It) :
    Res ((IDag PronunFrac × It) ⊕ IDag PronunFrac) := do
  let (f, it) := st
  if ← d.mFrom.same it .fin then pure (.inr f)
  else
    let x ← d.mFrom.get it
    let f ← f.addEdge x.key x.target (PronunFrac.single x.target [x.val])
    pure (.inl (f, ← d.mFrom.next it))

/-- `PronunDAG::fracDAG`, pron-dag.cxx:152-167 -/
noncomputable def fracDAG (d : IDag Syl) : Res (IDag PronunFrac) := do
  mergeFractions (← whileLoop (toFracStep d) (IDag.new, d.mFrom.first))

end IFrac

/-- Body of the `while` of lattice.cxx:27-29 -/
def altsStep (c : Cont SylString) (s : SylString) (it : It) : Res (It ⊕ It) := do
  if ← c.same it .fin then pure (.inr it)
  else if SylString.lt (← c.get it) s then pure (.inl (← c.next it))
  else pure (.inr it)

/-- `PronunFrac::operator+= (const SylString&)`, lattice.cxx:23-36, on `mAltPronuns` -/
noncomputable def insertAltI (c : Cont SylString) (s : SylString) : Res (Cont SylString) := do
  let it ← whileLoop (altsStep c s) c.first
  if ← c.same it .fin then c.insert it s
  else if SylString.ne (← c.get it) s then c.insert it s
  else pure c

namespace IChain

/-- Body of the `while` of lattice.cxx:61-64 -/
def innerStep (fracIt : It) (st : Cont PronunFrac × It) : Res ((Cont PronunFrac × It) ⊕ Cont PronunFrac) := do
  let (c, nextIt) := st
  if ← c.same nextIt .fin then pure (.inr c)
  else if (← c.get nextIt).altCount = 1 then
    let f ← c.get fracIt
    let g ← c.get nextIt
    match f.alts, g.alts with
    | a :: as, b :: _ =>
      let c ← c.set fracIt { f with alts := (a ++ b) :: as }
      let (c, nextIt) ← c.erase nextIt
      pure (.inl (c, nextIt))
    | _, _ => .ub
  else pure (.inr c)

/-- Body of the `for` of lattice.cxx:57-66 -/
noncomputable def outerStep (st : Cont PronunFrac × It) : Res ((Cont PronunFrac × It) ⊕ Cont PronunFrac) := do
  let (c, fracIt) := st
  if ← c.same fracIt .fin then pure (.inr c)
  else if (← c.get fracIt).altCount = 1 then
    let nextIt ← c.next fracIt
    let c ← whileLoop (innerStep fracIt) (c, nextIt)
    pure (.inl (c, ← c.next fracIt))
  else pure (.inl (c, ← c.next fracIt))

/-- `PronunChain::mergeSingles`, lattice.cxx:54-69 -/
noncomputable def mergeSingles (c : Cont PronunFrac) : Res (Cont PronunFrac) := whileLoop outerStep (c, c.first)

end IChain

namespace IPool

/-- Body of the `for` of parser.cxx:127-136; `none`: the loop has come to its end -/
def addStep (s : PState) (st : Cont PState × It) : Res ((Cont PState × It) ⊕ (Cont PState × Bool)) := do
  let (c, it) := st
  if ← c.same it .fin then pure (.inr (c, false))
  else
    let x ← c.get it
    if x.pos = s.pos ∧ x.linked = s.linked then
      let c ← c.set it { x with dag := x.dag.unionDAG s.dag }
      pure (.inr (c, true))
    else if x.pos ≥ s.pos then
      let c ← c.insert it s
      pure (.inr (c, true))
    else pure (.inl (c, ← c.next it))

/-- `StatePool::add`, parser.cxx:124-138 -/
noncomputable def add (c : Cont PState) (s : PState) : Res (Cont PState) := do
  let (c, returned) ← whileLoop (addStep s) (c, c.first)
  if returned then pure c else pure (c.pushBack s)

/-- Body of the `while` of parser.cxx:1909-1916 -/
noncomputable def dotStep (pos : Nat) (d : IDag Syl) : Res (IDag Syl ⊕ IDag Syl) := do
  if d.inDegree pos > 0 then
    let i := (d.mTo.range pos).1
    let iSyl := (← d.mTo.get i).val.setEndPos ((pos : Int) + 1)
    let d ← d.addEdge (← d.mTo.get i).target ((pos : Int) + 1) iSyl
    let d ← d.removeEdge (← d.mTo.get i).target pos (← d.mTo.get i).val
    pure (.inl d)
  else pure (.inr d)

/-- parser.cxx:1909-1916 -/
noncomputable def stretchDot (pos : Nat) (d : IDag Syl) : Res (IDag Syl) := whileLoop (dotStep pos) d

end IPool

end Thpronun
