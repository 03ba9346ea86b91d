import Verif.Spec.Grammar

/-! # Simple syllables

An onset, a vowel pattern, an optional tone mark and an optional final consonant, as in a school primer. -/

namespace Thpronun.Spec

/-- A vowel pattern: what is written before the consonant, right after it, and after the tone mark; the vowel, and the
final that the pattern itself spells. -/
structure Pattern where
  lead : U16Str
  sign : U16Str
  tail : U16Str
  vowel : Vowel
  final : EndConsClass := .NONE
  /-- Finals that do not go with the pattern. -/
  excl : U16Str := []
  /-- The pattern can take a tone mark. -/
  markable : Bool := true
  deriving DecidableEq

/-- Patterns without a final consonant. -/
def openPatterns : List Pattern := [
  ⟨[], [], u!"ะ", VW.A, .NONE, [], true⟩, ⟨[], [], u!"า", VW.AA, .NONE, [], true⟩,
  ⟨[], u!"ิ", [], VW.I, .NONE, [], true⟩, ⟨[], u!"ี", [], VW.II, .NONE, [], true⟩,
  ⟨[], u!"ึ", [], VW.UE, .NONE, [], true⟩, ⟨[], u!"ื", u!"อ", VW.UEE, .NONE, [], true⟩,
  ⟨[], u!"ุ", [], VW.U, .NONE, [], true⟩, ⟨[], u!"ู", [], VW.UU, .NONE, [], true⟩,
  ⟨u!"เ", [], u!"ะ", VW.E, .NONE, [], true⟩, ⟨u!"เ", [], [], VW.EE, .NONE, [], true⟩,
  ⟨u!"แ", [], u!"ะ", VW.AE, .NONE, [], true⟩, ⟨u!"แ", [], [], VW.AEE, .NONE, [], true⟩,
  ⟨u!"โ", [], u!"ะ", VW.O, .NONE, [], true⟩, ⟨u!"โ", [], [], VW.OO, .NONE, [], true⟩,
  ⟨u!"เ", [], u!"าะ", VW.AU, .NONE, [], true⟩, ⟨[], [], u!"อ", VW.AUU, .NONE, [], true⟩,
  ⟨u!"เ", [], u!"อะ", VW.OE, .NONE, [], true⟩, ⟨u!"เ", [], u!"อ", VW.OEE, .NONE, [], true⟩,
  ⟨[], u!"ั", u!"วะ", VW.UA, .NONE, [], true⟩, ⟨[], u!"ั", u!"ว", VW.UAA, .NONE, [], true⟩,
  ⟨u!"เ", u!"ี", u!"ยะ", VW.IA, .NONE, [], true⟩, ⟨u!"เ", u!"ี", u!"ย", VW.IAA, .NONE, [], true⟩,
  ⟨u!"เ", u!"ื", u!"อะ", VW.UEA, .NONE, [], true⟩, ⟨u!"เ", u!"ื", u!"อ", VW.UEAA, .NONE, [], true⟩,
  ⟨[], [], u!"ำ", VW.A, .KOM, [], true⟩, ⟨u!"ใ", [], [], VW.A, .KOEY, [], true⟩,
  ⟨u!"ไ", [], [], VW.A, .KOEY, [], true⟩, ⟨u!"ไ", [], u!"ย", VW.A, .KOEY, [], true⟩,
  ⟨u!"เ", [], u!"า", VW.A, .KOEW, [], true⟩, ⟨u!"เ", [], u!"ย", VW.OEE, .KOEY, [], true⟩,
  ⟨[], [], u!"รร", VW.A, .KON, [], true⟩]

/-- Patterns with a final consonant after them. -/
def closedPatterns : List Pattern := [
  ⟨[], u!"ั", [], VW.A, .NONE, u!"ว", true⟩, ⟨[], [], u!"า", VW.AA, .NONE, [], true⟩,
  ⟨[], u!"ิ", [], VW.I, .NONE, u!"ย", true⟩, ⟨[], u!"ี", [], VW.II, .NONE, u!"ย", true⟩,
  ⟨[], u!"ึ", [], VW.UE, .NONE, [], true⟩, ⟨[], u!"ื", [], VW.UEE, .NONE, [], true⟩,
  ⟨[], u!"ุ", [], VW.U, .NONE, [], true⟩, ⟨[], u!"ู", [], VW.UU, .NONE, [], true⟩,
  ⟨u!"เ", u!"็", [], VW.E, .NONE, [], false⟩, ⟨u!"เ", [], [], VW.EE, .NONE, u!"ย", true⟩,
  ⟨u!"แ", u!"็", [], VW.AE, .NONE, [], false⟩, ⟨u!"แ", [], [], VW.AEE, .NONE, [], true⟩,
  ⟨[], [], [], VW.O, .NONE, u!"ยวร", true⟩, ⟨u!"โ", [], [], VW.OO, .NONE, [], true⟩,
  ⟨[], u!"็", u!"อ", VW.AU, .NONE, [], false⟩, ⟨[], [], u!"อ", VW.AUU, .NONE, [], true⟩,
  ⟨u!"เ", u!"ิ", [], VW.OEE, .NONE, [], true⟩, ⟨[], [], u!"ว", VW.UAA, .NONE, [], true⟩,
  ⟨u!"เ", u!"ี", u!"ย", VW.IAA, .NONE, [], true⟩, ⟨u!"เ", u!"ื", u!"อ", VW.UEAA, .NONE, [], true⟩,
  ⟨[], [], u!"รร", VW.A, .NONE, [], true⟩]

/-- An optional tone mark. -/
def Marked (mk : U16Str) (m : Tone) : Prop := (mk = [] ∧ m = .SAMAN) ∨ ∃ x, (x, m) ∈ marks ∧ mk = [x]

/-- An onset as written, with its sound, class and second consonant: one letter, a true cluster, leading ห, or
silent ร. -/
def OnsetText (on : U16Str) (snd : InitConsSound) (cls : InitConsClass) (sec : SecInitCons) : Prop :=
  (∃ c, on = [c] ∧ IsConsonant c ∧ c ∈ soundLetters snd ∧ c ∈ classLetters cls ∧ sec = SC.NONE) ∨
  (∃ c d cs, on = [c, d] ∧ IsConsonant c ∧ c ∈ soundLetters snd ∧ c ∈ classLetters cls ∧
    (cs, d, sec) ∈ trueClusters ∧ c ∈ cs) ∨
  (∃ d, on = [ch!"ห", d] ∧ IsConsonant d ∧ d ∈ soundLetters snd ∧ d ∈ classLetters .LOWS ∧ cls = .HIGH ∧
    sec = SC.NONE) ∨
  (∃ c ∈ u!"จซศส", on = [c, ch!"ร"] ∧ c ∈ soundLetters snd ∧ c ∈ classLetters cls ∧ sec = SC.NONE)

/-- The word with the onset `on`, the mark `mk` and the final `fin`. -/
def Pattern.word (pat : Pattern) (on mk fin : U16Str) : U16Str :=
  pat.lead ++ on ++ pat.sign ++ mk ++ pat.tail ++ fin

end Thpronun.Spec
