import Verif.Lemmas.Entry
import Verif.Props.Dag
import Verif.Props.Parser
import Verif.Props.Syl

/-! # C78: where a string of syllables ends -/

namespace Thpronun
open Res Spec DAG

/-- The end of the last syllable; the beginning if there is none. -/
theorem C78_value (s : SylString) : (s = [] → SylString.endPos s = 0) ∧
    ∀ p x, s = p ++ [x] → SylString.endPos s = x.endPos :=
  ⟨fun h => by rw [h]; rfl, fun p x h => by rw [h, SylString.endPos, List.getLast?_concat]⟩

/-- Concatenation ends where its second part ends, if there is one. -/
theorem C78_append (a b : SylString) (h : b ≠ []) : SylString.endPos (a ++ b) = SylString.endPos b := by
  obtain ⟨p, x, rfl⟩ : ∃ p x, b = p ++ [x] := ⟨b.dropLast, b.getLast h, (List.dropLast_append_getLast h).symm⟩
  rw [← List.append_assoc, (C78_value _).2 _ x rfl, (C78_value _).2 _ x rfl]

/-- The DAG of a string leads from the end of each beginning of it to the end of the next. -/
theorem C78_edges (s : SylString) (u v : Int) (x : Syl) : Edge (PronunDAG.ofStrings [s]) u v x ↔
    ∃ p y r, s = p ++ y :: r ∧ u = SylString.endPos p ∧ v = SylString.endPos (p ++ [y]) ∧ Syl.eq y x = true := by
  rw [C16_ofStrings]
  constructor
  · rintro ⟨s', hs, y, ⟨p, r, h1, h2, h3⟩, hx⟩
    cases List.mem_singleton.mp hs
    exact ⟨p, y, r, h1, h3, by rw [(C78_value _).2 p y rfl, h2], hx⟩
  · rintro ⟨p, y, r, h1, h2, h3, hx⟩
    exact ⟨s, by simp, y, ⟨p, r, h1, by rw [h3, (C78_value _).2 p y rfl], h2⟩, hx⟩

/-- A string that leads forward from 0 to `n` ends at `n`. -/
theorem C78_forward (s : SylString) (n : Int) (h : Forward 0 n s) : SylString.endPos s = n := by
  have key : ∀ (s : SylString) (p : Int), Forward p n s → (match s.getLast? with | none => p | some x => x.endPos) = n := by
    intro s
    induction s with
    | nil => exact fun p h => h
    | cons x s ih =>
      intro p h
      have := ih x.endPos h.2
      cases s with
      | nil => exact this
      | cons y s => rw [List.getLast?_cons_cons]; simpa [List.getLast?_cons] using this
  exact key s 0 h

/-- Shifting moves the end with the string: ordinary positions and the positions of pre-syllables. -/
theorem C78_shift (s : SylString) (o : Int) (h : s ≠ []) :
    (0 ≤ SylString.endPos s → SylString.endPos (SylString.shiftEndPos s o) = SylString.endPos s + o) ∧
    ∀ b e, 0 ≤ b → b < e → SylString.endPos s = spanPos b e →
      SylString.endPos (SylString.shiftEndPos s o) = spanPos (b + o) (e + o) := by
  obtain ⟨p, x, rfl⟩ : ∃ p x, s = p ++ [x] := ⟨s.dropLast, s.getLast h, (List.dropLast_append_getLast h).symm⟩
  have h1 := C09_shift o [x]
  have h2 : SylString.shiftEndPos (p ++ [x]) o = SylString.shiftEndPos p o ++ SylString.shiftEndPos [x] o := List.map_append
  obtain ⟨y, hy⟩ : ∃ y, SylString.shiftEndPos [x] o = [y] := ⟨_, rfl⟩
  rw [hy] at h1 h2
  rw [h2, (C78_value _).2 _ x rfl, (C78_value _).2 _ y rfl]
  cases h1 with
  | cons h3 => exact h3.2

/-- The empty string stays at the beginning wherever it is shifted. -/
theorem C78_shift_empty (o : Int) : SylString.endPos (SylString.shiftEndPos [] o) = 0 := rfl

/-- A fraction that is assigned a string has this alternative only and ends where the string does. -/
theorem C78_frac (f : PronunFrac) (s : SylString) : (f.assignStr s).alts = [s] ∧ (f.assignStr s).endPos = SylString.endPos s :=
  ⟨rfl, rfl⟩

/-- All pronunciations of a parsed word end at the end of the word. -/
theorem C78_listing {ct : CType} {look : List Nat → Option Str} {p : Parser} {word : Str} {w : U16Str} {d : PronunDAG}
    (hct : ct.Ok) (hw : fromBytes word = .ok w) (hd : Holds p.exceptDict look) (hg : GoodLook look)
    (h : p.parseWord ct word = .ok d) :
    ∃ ss, PronunDAG.sylStrings d 0 = .ok ss ∧ ∀ s ∈ ss, SylString.endPos s = w.length := by
  obtain ⟨ss, h1, h2⟩ := C38_listing hct hw hd hg h
  exact ⟨ss, h1, fun s hs => C78_forward s _ (h2 s hs).2⟩

/-- กะ-ลา with positions: the hypotheses of the theorems above are met by a string of two syllables. -/
example : Forward 0 4 [Syl.mk5 .KA SC.NONE VW.A .NONE .EK 2, Syl.mk5 .LA SC.NONE VW.AA .NONE .SAMAN 4] ∧
    SylString.endPos (SylString.shiftEndPos [Syl.mk5 .KA SC.NONE VW.A .NONE .EK 2, Syl.mk5 .LA SC.NONE VW.AA .NONE .SAMAN 4] 3) = 7 :=
  ⟨⟨by decide, by decide, rfl⟩, by decide⟩

example : SylString.endPos [Syl.mk5 .KA SC.NONE VW.A .NONE .EK (spanPos 4 7)] = spanPos 4 7 ∧
    SylString.endPos (SylString.shiftEndPos [Syl.mk5 .KA SC.NONE VW.A .NONE .EK (spanPos 4 7)] 3) = spanPos 7 10 := by decide

end Thpronun
