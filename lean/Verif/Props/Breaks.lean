import Verif.Props.Listed
import Verif.Props.Syl
import Verif.Lemmas.Breaks

/-! # Word breaks only narrow the readings: C66 -/

namespace Thpronun
open Res Spec DAG

variable {ct : CType} {p p' : Parser} {word : Str} {w : U16Str} {brk : List Int} {look : List Nat → Option Str}
  {d d' : PronunDAG}

private def thee : Syl := ⟨.THA, SC.NONE, VW.EE, .NONE, .SAMAN, [], 2⟩
private def yok : Syl := ⟨.YA, SC.NONE, VW.O, .KOK, .TRI, [], 4⟩

/-- The listing of a concrete word without dictionary. -/
private theorem listing {n : Nat} {w : U16Str} {brk : List Int} {P : List SylString → Bool}
    (h : parsesTo n w none brk (fun d => match PronunDAG.sylStrings d 0 with | .ok ss => P ss | _ => false) = true) :
    ∃ d ss, parseU16 thaiCType w none brk = .ok d ∧ PronunDAG.sylStrings d 0 = .ok ss ∧ P ss = true := by
  obtain ⟨d, hd, h⟩ := parsesTo_spec h
  cases hs : PronunDAG.sylStrings d 0 with
  | ok ss => rw [hs] at h; exact ⟨d, ss, hd, hs, h⟩
  | _ => rw [hs] at h; cases h

/-- เทยก is read เท-ยก with a break after เท, but not without. -/
theorem C66_false : ∃ d ss d' ss' s, (Parser.new (fun _ => [2]) true).parseWord thaiCType b!"เทยก" = .ok d ∧
    (Parser.new (fun _ => [2]) false).parseWord thaiCType b!"เทยก" = .ok d' ∧
    PronunDAG.sylStrings d 0 = .ok ss ∧ PronunDAG.sylStrings d' 0 = .ok ss' ∧ s ∈ ss ∧ ¬ ∃ s' ∈ ss', SamePron s' s := by
  obtain ⟨d, ss, h1, h2, h3⟩ := listing (n := 60) (w := u!"เทยก") (brk := [2]) (P := fun ss => decide ([thee, yok] ∈ ss))
    (by decide +kernel)
  obtain ⟨d', ss', h1', h2', h3'⟩ := listing (n := 60) (w := u!"เทยก") (brk := [])
    (P := fun ss => decide (∀ s ∈ ss, ∀ x ∈ s.head?, x.eCons = .NONE → x.endPos ≠ 2)) (by decide +kernel)
  refine ⟨d, ss, d', ss', [thee, yok], h1, h1', h2, h2', of_decide_eq_true h3, ?_⟩
  rintro ⟨s', hs', h⟩
  cases h with
  | cons h _ =>
    obtain ⟨e1, e2⟩ := (C04_eq_iff _ _).mp h.1
    exact of_decide_eq_true h3' _ hs' _ rfl (e2 e1).2.2.2.1 h.2

/-- Every reading with breaks is one without, if the breaks cut no spelling. -/
theorem C66_readings (hct : ct.Ok) (hb : ∀ n : Nat, (n : Int) ∈ brk → 0 < n → n < w.length → SoftBreak ct w look n)
    (es : List (Entry Syl)) (h : RuleReading ct w look brk es) : RuleReading ct w look [] es :=
  ruleReading_nobreak hct hb h

/-- Every pronunciation listed with word breaks is listed without, if the breaks cut no spelling. (Missing: other
breaks, see `C66_false`.) -/
theorem C66_partial (hct : ct.Ok) (hw : fromBytes word = .ok w) (hne : w ≠ []) (hd : Holds p.exceptDict look)
    (hg : GoodLook look) (hd' : Holds p'.exceptDict look) (hno : p'.thBrk = none)
    (hb : ∀ n : Nat, (n : Int) ∈ findBreaks w p.thBrk → 0 < n → n < w.length → SoftBreak ct w look n)
    (h : p.parseWord ct word = .ok d) (h' : p'.parseWord ct word = .ok d') :
    ∃ ss ss', PronunDAG.sylStrings d 0 = .ok ss ∧ PronunDAG.sylStrings d' 0 = .ok ss' ∧
      ∀ s ∈ ss, ∃ s' ∈ ss', SamePron s' s := by
  obtain ⟨ss, h1, h2, -⟩ := C54_exact hct hw hd hg hne h
  obtain ⟨ss', h1', -, h3', -⟩ := C54_exact hct hw hd' hg hne h'
  refine ⟨ss, ss', h1, h1', fun s hs => h3' s ?_⟩
  have := h2 s hs
  rw [hno]
  generalize (0 : Int) = a at this ⊢
  clear hs
  induction s generalizing a with
  | nil => exact this
  | cons x s ih =>
    obtain ⟨⟨es, k1, k2⟩, k3⟩ := this
    exact ⟨⟨es, C66_readings hct hb es k1, k2⟩, ih _ k3⟩

/-- The break in มา|นี cuts no spelling, whereas the ones in เท|ยก and ก|กา do. -/
example : SoftBreak thaiCType u!"มานี" (fun _ => none) 2 ∧ ¬ SoftBreak thaiCType u!"เทยก" (fun _ => none) 2 ∧
    ¬ SoftBreak thaiCType u!"กกา" (fun _ => none) 1 := by
  refine ⟨?_, fun h => ?_, fun h => ?_⟩
  · constructor
    · exact ⟨_, ⟨by decide, rfl⟩, .inl (by decide)⟩
    · decide
    · intro i c hi hc
      obtain rfl : i = 1 := by omega
      cases hc
      decide
    · intro i c hi hc
      obtain rfl : i = 0 := by omega
      cases hc
    · intro i hi
      obtain rfl : i = 1 := by omega
      decide
    · intro i hi _ hc
      have : i = 0 ∨ i = 1 := by omega
      rcases this with rfl | rfl <;> cases hc
    · intro i c hi
      omega
    · rintro p q hp hq ⟨-, -, ⟨n, hn, rfl, h1, h2⟩ | ⟨h1, -⟩⟩
      · have hp' : p + n < 4 := (List.getElem?_eq_some_iff.mp h2).1
        have : p + n = 0 ∨ p + n = 1 ∨ p + n = 2 ∨ p + n = 3 := by omega
        rcases this with h | h | h | h <;> rw [h] at h2 <;> cases h2
      · omega
    · intro i c hi hc _
      obtain rfl : i = 1 := by omega
      rcases hc with h | h | h
      · cases h
      · cases h
      · cases h
    · intros; rfl
  · obtain ⟨-, h⟩ := h.ey 0 (by decide) (by decide) rfl rfl
    exact h ⟨_, ⟨by decide, rfl⟩, .inl (by decide)⟩
  · exact absurd (h.alone 0 _ rfl (.inl rfl) rfl) (by decide)

end Thpronun
