import Verif.Model.Dag
import Verif.Model.Lattice

/-! # `lattice/pron-dag.cxx` and `DAGSylStrings` (`output/ioutput.cxx`) -/

namespace Thpronun

/-- pron-dag.h:14-33: `FracDAG` adds no data members to `DAG<PronunFrac>`. -/
abbrev FracDAG := DAG PronunFrac

namespace PronunDAG

/-- `addSylString`, pron-dag.cxx:142-150 -/
def addSylString (d : PronunDAG) (pos : Int) : SylString → PronunDAG
  | [] => d
  | s :: ss => addSylString (d.addEdge pos s.endPos s).1 s.endPos ss

/-- `PronunDAG (const std::list<SylString>)`, pron-dag.cxx:134-140 -/
def ofStrings (ss : List SylString) : PronunDAG :=
  ss.foldl (fun d s => addSylString d 0 s) DAG.empty

end PronunDAG

/-- Concatenate results of processing the edges of a node, in order. -/
def concatRes {α β} (f : α → Res (List β)) : List α → Res (List β)
  | [] => .ok []
  | a :: as => do
    let b ← f a
    let bs ← concatRes f as
    pure (b ++ bs)

namespace PronunDAG

/-- `IOutput::DAGSylStrings`, ioutput.cxx:9-27. The recursion over nodes is fuelled; on a cycle the
real function recurses for ever (`diverge`). -/
def sylStringsAux (d : PronunDAG) : Nat → Int → Res (List SylString)
  | 0, _ => .diverge
  | fuel + 1, root =>
    concatRes (fun (x : Entry Syl) => do
      let child ← sylStringsAux d fuel x.target
      if child.length = 0 then pure [[x.val]]
      else pure (child.map fun s => [x.val] ++ s)) (d.outEdges root)

/-- `DAGSylStrings (pronDAG, root)`: fuel = number of edges + 1 (enough when no cycle is
reachable, theorem `C15_…`). -/
def sylStrings (d : PronunDAG) (root : Int) : Res (List SylString) :=
  sylStringsAux d (d.mFrom.length + 1) root

end PronunDAG

namespace FracDAG

/-- The condition of pron-dag.cxx:41 at the element `it`. -/
def isPass (d : FracDAG) (x : Entry PronunFrac) : Bool :=
  d.outDegree x.key = 1 && d.inDegree x.key = 1

/-- Body of the loop of `mergeSingles` for the pass-through edge `it`, pron-dag.cxx:42-52.
`*begin()` of a fraction without alternatives is UB; if the incoming edge is `it` itself
(self-loop), the first `removeEdge` erases `it`, which is then used: UB. -/
def mergeAt (d : FracDAG) (it : Entry PronunFrac) : Res FracDAG :=
  match d.inEdges it.key with
  | [] => .ub
  | inIt :: _ =>
    let srcNode := inIt.target
    let dstNode := it.target
    match inIt.val.alts, it.val.alts with
    | a :: _, b :: _ =>
      if srcNode = it.key then .ub else
      let mergedStr := a ++ b
      let d1 := (d.removeEdge srcNode it.key inIt.val).1
      let d2 := (d1.removeEdge it.key dstNode it.val).1
      .ok (d2.addEdge srcNode dstNode (PronunFrac.single dstNode mergedStr)).1
    | _, _ => .ub

/-- `FracDAG::mergeSingles`, pron-dag.cxx:37-60: find the first pass-through edge in iteration
order, merge, restart from the beginning. Fuelled (termination is theorem `C18_…`). -/
def mergeSinglesLoop : Nat → FracDAG → Res FracDAG
  | 0, _ => .diverge
  | fuel + 1, d =>
    match d.mFrom.find? (isPass d) with
    | none => .ok d
    | some it => do mergeSinglesLoop fuel (← mergeAt d it)

def mergeSingles (d : FracDAG) : Res FracDAG := mergeSinglesLoop (d.mFrom.length + 1) d

/-- Edges from `src` to `dst` in iteration order (pron-dag.cxx:76-82). -/
def parallels (d : FracDAG) (src dst : Int) : List (Entry PronunFrac) :=
  (d.outEdges src).filter fun x => x.target = dst

/-- Does the loop body of `mergeParallels` merge at `it`?  pron-dag.cxx:66-83 -/
def isParallel (d : FracDAG) (it : Entry PronunFrac) : Bool :=
  !(decide (d.outDegree it.key = 1)) && decide ((parallels d it.key it.target).length > 1)

/-- pron-dag.cxx:73-85 -/
def mergeParAt (d : FracDAG) (it : Entry PronunFrac) : FracDAG :=
  let mergedFrac := (parallels d it.key it.target).foldl (fun f x => f.addFrac x.val) PronunFrac.empty
  ((d.removeDirectEdges it.key it.target).1.addEdge it.key it.target mergedFrac).1

/-- `FracDAG::mergeParallels`, pron-dag.cxx:62-92. The scan starts at the beginning; after a merge
`it` is reset to the beginning and incremented by the `for`, so that the first element is skipped
(`skip = 1`). -/
def mergeParallelsLoop : Nat → Nat → FracDAG → Res FracDAG
  | 0, _, _ => .diverge
  | fuel + 1, skip, d =>
    match (d.mFrom.drop skip).find? (isParallel d) with
    | none => .ok d
    | some it => mergeParallelsLoop fuel 1 (mergeParAt d it)

def mergeParallels (d : FracDAG) : Res FracDAG := mergeParallelsLoop (d.mFrom.length + 1) 0 d

/-- `mergeFractions`, pron-dag.cxx:25-35 -/
def mergeFractions (d : FracDAG) : Res FracDAG := do mergeParallels (← mergeSingles d)

/-- `nodeLattice`, pron-dag.cxx:100-123 (fuelled) -/
def nodeLattice (d : FracDAG) : Nat → Int → Res PronunLatt
  | 0, _ => .diverge
  | fuel + 1, src =>
    concatRes (fun (x : Entry PronunFrac) => do
      let child ← nodeLattice d fuel x.target
      if child.length = 0 then pure [[x.val]]
      else pure (child.map fun chain => [x.val] ++ chain)) (d.outEdges src)

/-- `lattice`, pron-dag.cxx:94-98 -/
def lattice (d : FracDAG) : Res PronunLatt := do
  pure (PronunLatt.mergeSingles (← nodeLattice d (d.mFrom.length + 1) 0))

end FracDAG

/-- The loop of `PronunDAG::fracDAG`, pron-dag.cxx:155-162 -/
def PronunDAG.toFrac (d : PronunDAG) : FracDAG :=
  d.mFrom.foldl
    (fun f x => (f.addEdge x.key x.target (PronunFrac.single x.target [x.val])).1) DAG.empty

/-- `PronunDAG::fracDAG`, pron-dag.cxx:152-167 -/
def PronunDAG.fracDAG (d : PronunDAG) : Res FracDAG := FracDAG.mergeFractions d.toFrac

end Thpronun
