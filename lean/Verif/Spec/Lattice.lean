import Verif.Model.Lattice

/-! # What fractions, chains and lattices stand for -/

namespace Thpronun.Spec

/-- `FracBuilt f l`: the fraction `f` is the result of some sequence of `+=` operations that started
from an empty fraction (with any end position) and added the strings `l`, in that order. -/
inductive FracBuilt : PronunFrac → List SylString → Prop
  | empty (endPos : Int) : FracBuilt ⟨[], endPos⟩ []
  | addStr {f l} (s : SylString) : FracBuilt f l → FracBuilt (f.addStr s) (l ++ [s])
  | addFrac {f l g m} : FracBuilt f l → FracBuilt g m → FracBuilt (f.addFrac g) (l ++ g.alts)

/-- All ways of choosing one alternative per fraction, in order, concatenated. -/
def expand : PronunChain → List SylString
  | [] => [[]]
  | f :: r => f.alts.flatMap fun a => (expand r).map fun s => a ++ s

/-- All readings of a lattice. -/
def expandLatt (l : PronunLatt) : List SylString := l.flatMap expand

end Thpronun.Spec
