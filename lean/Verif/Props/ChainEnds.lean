import Verif.Spec.Chain
import Verif.Props.EndPos
import Verif.Props.Lattice

/-! # C80: end positions of merged fractions -/

namespace Thpronun
open Spec

theorem single_alt {f : PronunFrac} (h : f.altCount = 1) : ∃ a, f = ⟨[a], f.endPos⟩ := by
  obtain ⟨alts, e⟩ := f
  match alts, h with
  | [a], _ => exact ⟨a, rfl⟩

theorem mergeSinglesAux_merged (c : PronunChain) :
    (∃ m, mergeSinglesAux none c = m ∧ Merged c m) ∧
    ∀ (a : SylString) (e : Int), ∃ (strs : List SylString) (ends : List Int) (c' m : PronunChain), strs.length = ends.length ∧
      c = (strs.zip ends).map (fun p => (⟨[p.1], p.2⟩ : PronunFrac)) ++ c' ∧ (∀ g ∈ c'.head?, g.alts.length ≠ 1) ∧
      mergeSinglesAux (some ⟨[a], e⟩) c = ⟨[a ++ strs.flatten], e⟩ :: m ∧ Merged c' m := by
  induction c with
  | nil => exact ⟨⟨[], rfl, .nil⟩, fun a e => ⟨[], [], [], [], rfl, rfl, by simp, by simp [mergeSinglesAux], .nil⟩⟩
  | cons g r ih =>
    obtain ⟨⟨m0, h0, k0⟩, h1⟩ := ih
    by_cases hg : g.altCount = 1
    · obtain ⟨b, hb⟩ := single_alt hg
      constructor
      · obtain ⟨strs, ends, c', m, e1, e2, e3, e4, e5⟩ := h1 b g.endPos
        refine ⟨_, rfl, ?_⟩
        rw [mergeSinglesAux, if_pos hg, hb, e4]
        have := Merged.run (f := ⟨[b ++ strs.flatten], g.endPos⟩) (b :: strs) (g.endPos :: ends) (by simp) (by simp [e1]) rfl rfl e3 e5
        rw [e2]
        exact this
      · intro a e
        obtain ⟨strs, ends, c', m, e1, e2, e3, e4, e5⟩ := h1 (a ++ b) e
        refine ⟨b :: strs, g.endPos :: ends, c', m, by simp [e1], ?_, e3, ?_, e5⟩
        · rw [e2, List.zip_cons_cons, List.map_cons, ← hb]; rfl
        · rw [mergeSinglesAux, if_pos hg, hb, show PronunFrac.appendFirst ⟨[a], e⟩ ⟨[b], g.endPos⟩ = ⟨[a ++ b], e⟩ from rfl, e4]
          simp
    · constructor
      · refine ⟨_, rfl, ?_⟩
        rw [mergeSinglesAux, if_neg hg, h0]
        exact .keep hg k0
      · intro a e
        refine ⟨[], [], g :: r, g :: m0, rfl, rfl, by intro x hx; cases hx; exact hg, ?_, .keep hg k0⟩
        rw [mergeSinglesAux, if_neg hg, h0]
        simp

/-- What merging does, end positions included. -/
theorem C80_exact (c : PronunChain) : Merged c (PronunChain.mergeSingles c) := by
  obtain ⟨m, h, hm⟩ := (mergeSinglesAux_merged c).1
  rw [PronunChain.mergeSingles, h]
  exact hm

private def sylA (e : Int) : Syl := Syl.mk5 .KA SC.NONE VW.A .NONE .EK e
private def sylB (e : Int) : Syl := Syl.mk5 .KHA SC.NONE VW.A .NONE .EK e

/-- A merged fraction keeps the end position of its first part. -/
theorem C80_false : EndsKnown [⟨[[sylA 1]], 1⟩, ⟨[[sylB 2]], 2⟩] ∧
    PronunChain.mergeSingles [⟨[[sylA 1]], 1⟩, ⟨[[sylB 2]], 2⟩] = [⟨[[sylA 1, sylB 2]], 1⟩] ∧
    ¬ EndsKnown (PronunChain.mergeSingles [⟨[[sylA 1]], 1⟩, ⟨[[sylB 2]], 2⟩]) := by
  refine ⟨?_, by decide, fun h => ?_⟩
  · unfold EndsKnown; decide
  · exact absurd (h ⟨[[sylA 1, sylB 2]], 1⟩ (by decide) _ List.mem_cons_self) (by decide)

/-- Without two neighbours of one alternative each, nothing is merged; otherwise the fractions with several alternatives, at
least, still know where they end. (Missing: the merged fractions, which do not.) -/
theorem C80_partial (c : PronunChain) (h : EndsKnown c) :
    (∀ f ∈ PronunChain.mergeSingles c, f.altCount ≠ 1 → ∀ s ∈ f.alts, SylString.endPos s = f.endPos) ∧
    ((∀ p f g r, c = p ++ f :: g :: r → ¬ (f.altCount = 1 ∧ g.altCount = 1)) → PronunChain.mergeSingles c = c) := by
  have hm := C80_exact c
  generalize PronunChain.mergeSingles c = m at hm
  induction hm with
  | nil => exact ⟨by simp, fun _ => rfl⟩
  | @keep f c m hf _ ih =>
    obtain ⟨h1, h2⟩ := ih fun g hg => h g (by simp [hg])
    refine ⟨fun g hg => ?_, fun hn => ?_⟩
    · rcases List.mem_cons.mp hg with rfl | hg
      · exact fun _ => h g (by simp)
      · exact h1 g hg
    · rw [h2 fun p a b r hc => hn (f :: p) a b r (by rw [hc]; rfl)]
  | @run f c m strs ends hne hlen hhd hal hnx _ ih =>
    obtain ⟨h1, h2⟩ := ih fun g hg => h g (by simp [hg])
    refine ⟨fun g hg => ?_, fun hn => ?_⟩
    · rcases List.mem_cons.mp hg with rfl | hg
      · intro h1; rw [PronunFrac.altCount, hal] at h1; exact absurd rfl h1
      · exact h1 g hg
    · obtain ⟨alts, ep⟩ := f
      clear h ih
      match strs, ends, hne, hlen, hhd, hal, hn with
      | [s], [e], _, _, hhd, hal, hn =>
        simp only [List.head?_cons, Option.some.injEq, List.flatten_cons, List.flatten_nil, List.append_nil] at hhd hal
        rw [h2 fun p a b r hc => hn (⟨[s], e⟩ :: p) a b r (by rw [hc]; rfl), hal, ← hhd]
        rfl
      | s :: s' :: strs, e :: e' :: ends, _, _, _, _, hn =>
        exact absurd ⟨rfl, rfl⟩ (hn [] ⟨[s], e⟩ ⟨[s'], e'⟩ _ rfl)

/-- A chain with a fraction of two alternatives between others. -/
example : EndsKnown [⟨[[sylA 1]], 1⟩, ⟨[[sylA 2], [sylB 2]], 2⟩, ⟨[[sylB 3]], 3⟩] := by unfold EndsKnown; decide

end Thpronun
