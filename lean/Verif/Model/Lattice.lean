import Verif.Model.SylString

/-! # Lattice: `lattice/lattice.{h,cxx,inl}` -/

namespace Thpronun

/-- lattice.h:12-44 -/
structure PronunFrac where
  alts : List SylString
  endPos : Int
  deriving DecidableEq, Repr

namespace PronunFrac

/-- lattice.inl:11-13 -/
def empty : PronunFrac := ⟨[], -1⟩

/-- lattice.cxx:23-36: insertion of one string ("keep mAltPronuns sorted & unique"). -/
def insertAlt : List SylString → SylString → List SylString
  | [], s => [s]
  | x :: xs, s =>
    if SylString.lt x s then x :: insertAlt xs s
    else if SylString.ne x s then s :: x :: xs
    else x :: xs

/-- `operator+= (const SylString&)`, lattice.cxx:23-36 -/
def addStr (f : PronunFrac) (s : SylString) : PronunFrac := { f with alts := insertAlt f.alts s }

/-- `operator+= (const PronunFrac&)`, lattice.cxx:13-21 -/
def addFrac (f g : PronunFrac) : PronunFrac := g.alts.foldl addStr f

/-- `PronunFrac (int endPos, const SylString&)`, lattice.inl:15-20 -/
def single (endPos : Int) (s : SylString) : PronunFrac := addStr ⟨[], endPos⟩ s

/-- `operator= (const SylString&)`, lattice.inl:40-46 (nothing of the old contents is kept) -/
def assignStr (_ : PronunFrac) (s : SylString) : PronunFrac := addStr ⟨[], s.endPos⟩ s

/-- lattice.inl:48-52 -/
def altCount (f : PronunFrac) : Nat := f.alts.length

/-- Elementwise comparison of the alternatives, lattice.cxx:38-48 -/
def altsEq : List SylString → List SylString → Bool
  | [], [] => true
  | a :: as, b :: bs => if SylString.ne a b then false else altsEq as bs
  | _, _ => false

/-- `operator==`, lattice.cxx:38-48 (the end position does not take part) -/
def eq (a b : PronunFrac) : Bool := altsEq a.alts b.alts

instance : CppEq PronunFrac := ⟨PronunFrac.eq⟩

/-- `*fracIt->begin() += *nextIt->begin()`, lattice.cxx:62 (only reached when both fractions
have exactly one alternative) -/
def appendFirst (f g : PronunFrac) : PronunFrac :=
  match f.alts, g.alts with
  | a :: as, b :: _ => { f with alts := (a ++ b) :: as }
  | _, _ => f

end PronunFrac

/-- lattice.h:46-71 (`std::list<PronunFrac>`) -/
abbrev PronunChain := List PronunFrac
/-- lattice.h:73-99 (`std::list<PronunChain>`) -/
abbrev PronunLatt := List PronunChain

/-- `PronunChain::mergeSingles`, lattice.cxx:54-69. The first argument is the fraction at `fracIt`
while the inner `while` loop absorbs its single-alternative successors. -/
def mergeSinglesAux : Option PronunFrac → PronunChain → PronunChain
  | none, [] => []
  | some f, [] => [f]
  | none, g :: r => if g.altCount = 1 then mergeSinglesAux (some g) r else g :: mergeSinglesAux none r
  | some f, g :: r =>
    if g.altCount = 1 then mergeSinglesAux (some (f.appendFirst g)) r
    else f :: g :: mergeSinglesAux none r

/-- lattice.cxx:54-69 -/
def PronunChain.mergeSingles (c : PronunChain) : PronunChain := mergeSinglesAux none c

/-- lattice.cxx:75-83 -/
def PronunLatt.mergeSingles (l : PronunLatt) : PronunLatt := l.map PronunChain.mergeSingles

end Thpronun
