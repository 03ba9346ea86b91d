import Verif.Spec.Respell

/-! # Syllables that are written alike

What the Thai and the Roman notation do not tell apart: every syllable is brought to one of the syllables written like
it. -/

namespace Thpronun.Spec

/-- The initial is written with a mid consonant. -/
def midInitial (i : InitConsSound) : Bool := decide (i ∈ [InitConsSound.KA, .JA, .DA, .TA, .BA, .PA, .A])

/-- A dead syllable in the even tone, which Thai does not have, looks like one in the tone of the bare spelling. -/
def toneAsWritten (s : Syl) : Tone :=
  if spelledDead s = true ∧ s.tone = .SAMAN then
    if midInitial s.iCons1 then .EK else if spelledShort s then .TRI else .THO
  else s.tone

/-- A tone mark takes the place of the shortening sign. (Not counted: the low dead syllable with mai ek, which is short
as it stands.) -/
def shortUnwritten (s : Syl) : Bool :=
  let t := toneAsWritten s
  if spelledDead s then
    if midInitial s.iCons1 then decide (t ∈ [Tone.THO, .TRI, .CHATTAWA]) else decide (t = .CHATTAWA)
  else if midInitial s.iCons1 then decide (t ≠ .SAMAN) else decide (t ∈ [Tone.EK, .THO, .TRI])

/-- Before a final, ia, uea, oe are written long; so are e, ae, ua, au under a tone mark; and e before y is written like
oe before y. -/
def vowelAsWritten (s : Syl) : Vowel :=
  if s.eCons = .NONE then s.vowel
  else if s.eCons = .KOEY ∧ (s.vowel ∈ [VW.EE, VW.OE] ∨ (s.vowel = VW.E ∧ shortUnwritten s = true)) then VW.OEE
  else if s.vowel = VW.IA then VW.IAA
  else if s.vowel = VW.UEA then VW.UEAA
  else if s.vowel = VW.OE then VW.OEE
  else if shortUnwritten s then
    if s.vowel = VW.E then VW.EE else if s.vowel = VW.AE then VW.AEE else if s.vowel = VW.UA then VW.UAA
    else if s.vowel = VW.AU then VW.AUU else s.vowel
  else s.vowel

/-- The cluster consonant as a sound of its own. -/
def alone (c : SecInitCons) : InitConsSound := if c = SC.RA then .RA else if c = SC.LA then .LA else .WA

/-- A cluster of ห looks like the leading ห of r, l, w; this concerns the tones that take a high letter. -/
def onsetAsWritten (s : Syl) : InitConsSound × SecInitCons :=
  let t := toneAsWritten s
  if s.iCons1 = .HA ∧ s.iCons2 ≠ SC.NONE ∧ (t = .EK ∨ (t = .CHATTAWA ∧ spelledDead s = false)) then
    (alone s.iCons2, SC.NONE)
  else (s.iCons1, s.iCons2)

/-- The syllable, among those written alike in Thai, that stands for all of them. -/
def asWritten (s : Syl) : Syl :=
  { s with
    iCons1 := (onsetAsWritten s).1, iCons2 := (onsetAsWritten s).2, vowel := vowelAsWritten s, tone := toneAsWritten s }

/-- The syllable, among those romanized alike, that stands for all of them: without tone and length, with ch for j, o for
au, and r, l, w for a cluster of the silent initial. -/
def asRomanized (s : Syl) : Syl :=
  { s with
    iCons1 := if s.iCons1 = .JA then .CHA else (onset s).1
    iCons2 := (onset s).2
    vowel := (([(VW.AA, VW.A), (VW.II, VW.I), (VW.UEE, VW.UE), (VW.UU, VW.U), (VW.EE, VW.E), (VW.AEE, VW.AE), (VW.IAA, VW.IA),
      (VW.UEAA, VW.UEA), (VW.UAA, VW.UA), (VW.OO, VW.O), (VW.AU, VW.O), (VW.AUU, VW.O),
      (VW.OEE, VW.OE)] : List (Vowel × Vowel)).lookup s.vowel).getD s.vowel
    tone := .SAMAN }

end Thpronun.Spec
