import Verif.Model.Lattice

/-! # Merging the runs of fractions with one alternative -/

namespace Thpronun.Spec

/-- `Merged c m`: in `m` every maximal run of fractions of `c` with one alternative each is one fraction, whose alternative is
theirs put together and whose end position is that of the first; the other fractions are kept. -/
inductive Merged : PronunChain → PronunChain → Prop
  | nil : Merged [] []
  | keep {f c m} : f.alts.length ≠ 1 → Merged c m → Merged (f :: c) (f :: m)
  | run {f c m} (strs : List SylString) (ends : List Int) : strs ≠ [] → strs.length = ends.length → ends.head? = some f.endPos →
      f.alts = [strs.flatten] → (∀ g ∈ c.head?, g.alts.length ≠ 1) → Merged c m →
      Merged ((strs.zip ends).map (fun p => ⟨[p.1], p.2⟩) ++ c) (f :: m)

/-- Every alternative of every fraction ends where the fraction says. -/
def EndsKnown (c : PronunChain) : Prop := ∀ f ∈ c, ∀ s ∈ f.alts, SylString.endPos s = f.endPos

end Thpronun.Spec
