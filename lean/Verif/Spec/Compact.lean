import Verif.Spec.Lattice

/-! # How much is printed: syllables of a list and of a lattice -/

namespace Thpronun.Spec

/-- The number of syllables in a list of pronunciations. -/
def syllables (l : List SylString) : Nat := (l.map List.length).sum

/-- The number of syllables in a lattice: those of all alternatives of all fractions. -/
def lattSyllables (l : PronunLatt) : Nat := (l.map fun c => (c.map fun f => syllables f.alts).sum).sum

end Thpronun.Spec
