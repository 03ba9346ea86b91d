import Verif.Model.CType
import Verif.Model.Dict
import Verif.Model.PronDag
import Verif.Model.Utf
import Verif.Model.Loop

/-! # Parser: `parser/parser.{h,cxx}`

Positions are naturals (the C++ `int`s are never negative here; words are assumed shorter than
2^31/101 units so that no `int` overflows, see `Model/ParserInt` and C64). `assert`s are compiled out (`-DNDEBUG`,
configure.ac:35-37).

`AddState` calls are modelled by returning the list of emitted states (position, link flag,
snapshot of the partial syllable) in order; `addEmits` then performs the `pool.add`s. -/

namespace Thpronun

/-- parser.cxx:23-35 -/
def thCharToTone (c : U16) : Res Tone :=
  mapAt [(UTH.MAI_EK, Tone.EK), (UTH.MAI_THO, Tone.THO), (UTH.MAI_TRI, Tone.TRI),
    (UTH.MAI_CHATTAWA, Tone.CHATTAWA)] c

/-- parser.cxx:37-51 -/
def thCharToAboveBelowVowel (c : U16) : Res Vowel :=
  mapAt [(UTH.SARA_I, VW.I), (UTH.SARA_II, VW.II), (UTH.SARA_UE, VW.UE), (UTH.SARA_UEE, VW.UEE),
    (UTH.SARA_U, VW.U), (UTH.SARA_UU, VW.UU)] c

/-- parser.cxx:58-73 -/
structure PState where
  pos : Nat
  stop : Nat
  dag : PronunDAG
  linked : Bool
  deriving DecidableEq, Repr

/-- parser.cxx:115-122 -/
abbrev StatePool := List PState

namespace StatePool

/-- parser.cxx:124-138 -/
def add : StatePool → PState → StatePool
  | [], s => [s]
  | x :: xs, s =>
    if x.pos = s.pos ∧ x.linked = s.linked then { x with dag := x.dag.unionDAG s.dag } :: xs
    else if x.pos ≥ s.pos then s :: x :: xs
    else x :: add xs s

end StatePool

/-- parser.cxx:157-193 (`pre = none` is `hasPreSyl = false`) -/
structure PartialSyl where
  pos : Nat
  pre : Option Syl
  iConsSound : InitConsSound := .INVALID
  iConsClass : InitConsClass := .INVALID
  iCons2 : SecInitCons := SC.NONE
  vowel : Vowel := VW.INVALID
  eConsClass : EndConsClass := .NONE
  tone : Tone := .INVALID
  isComplete : Bool := false
  deriving DecidableEq, Repr

/-- The pre-syllable node `-(curPos * 100 + pos)`, parser.cxx:247 -/
def preNode (cur pos : Nat) : Int := -((cur : Int) * 100 + pos)

/-- The syllable built from a partial one, parser.cxx:253-264 -/
def PartialSyl.toSyl (p : PartialSyl) (pos : Nat) : Syl :=
  let isDead := if p.eConsClass = .NONE then isShortVowel p.vowel else isDeadEndConsClass p.eConsClass
  Syl.mk5 p.iConsSound p.iCons2 p.vowel p.eConsClass
    (toneFromWritten p.iConsClass p.tone isDead (isShortVowel p.vowel)) pos

/-- `AddSyl`, parser.cxx:240-268 -/
def addSyl (prev : PState) (p : PartialSyl) (pos : Nat) : PronunDAG :=
  match p.pre with
  | some pre =>
    let next := preNode prev.pos pos
    let dag := (prev.dag.addEdge prev.pos next (pre.setEndPos next)).1
    (dag.addEdge next pos (p.toSyl pos)).1
  | none => (prev.dag.addEdge prev.pos pos (p.toSyl pos)).1

/-- One call of `AddState`. -/
structure Emit where
  pos : Nat
  linked : Bool
  p : PartialSyl
  deriving DecidableEq, Repr

/-- `AddState`, parser.cxx:274-280 -/
def addState (pool : StatePool) (prev : PState) (e : Emit) : StatePool :=
  pool.add ⟨e.pos, prev.stop, addSyl prev e.p e.pos, e.linked⟩

def addEmits (pool : StatePool) (prev : PState) (es : List Emit) : StatePool :=
  es.foldl (fun pool e => addState pool prev e) pool

section
variable (ct : CType) (w : U16Str)

/-- parser.cxx:282-286 -/
def isSylStart (c : U16) : Bool := ct.isCons c || ct.isLdVowel c

/-! ## Initial consonants, parser.cxx:288-801 -/

/-- `i >= stopPos || UTH_RO_RUA != u16word.at (i)` (lines 323-324, 349-350) -/
def notRoAt (stop i : Nat) : Res Bool :=
  if i ≥ stop then .ok true else do pure (decide (UTH.RO_RUA ≠ (← strAt w i)))

/-- `i >= stopPos || UTH_RO_RUA != secChar || UTH_RO_RUA != u16word.at (i)` (lines 501-503,
518-520) -/
def notRoRo (stop i : Nat) (sec : U16) : Res Bool :=
  if i ≥ stop then .ok true else if UTH.RO_RUA ≠ sec then .ok true
  else do pure (decide (UTH.RO_RUA ≠ (← strAt w i)))

/-- parser.cxx:363-378 -/
def auraCons : List U16 := [UTH.KO_KAI, UTH.KHO_KHWAI, UTH.CHO_CHAN, UTH.THO_THAHAN, UTH.THO_THONG,
  UTH.NO_NU, UTH.BO_BAIMAI, UTH.PO_PLA, UTH.PHO_SAMPHAO, UTH.MO_MA, UTH.WO_WAEN, UTH.SO_SUA,
  UTH.HO_HIP, UTH.O_ANG]

/-- `Syl (sound, NONE, vowel, NONE, ToneFromWritten (cls, SAMAN, dead, short))` -/
def preSylOf (snd : InitConsSound) (cls : InitConsClass) (v : Vowel) (dead short : Bool) : Syl :=
  Syl.mk5 snd SC.NONE v .NONE (toneFromWritten cls .SAMAN dead short)

/-- The switch of lines 315-360 (first consonant before RO RUA). -/
def clusterRo (pos stop : Nat) (linked : Bool) (first : U16) (snd : InitConsSound)
    (cls : InitConsClass) : Res (List PartialSyl) :=
  if first ∈ [UTH.CHO_CHAN, UTH.SO_SO, UTH.SO_SALA, UTH.SO_SUA] then
    if linked then .ok [] else do
      if ← notRoAt w stop (pos + 2) then
        pure [{ pos := pos + 2, pre := none, iConsSound := snd, iConsClass := cls }]
      else pure []
  else if first ∈ [UTH.KHO_KHAI, UTH.KHO_KHWAI, UTH.DO_DEK, UTH.THO_THAHAN, UTH.BO_BAIMAI,
      UTH.PHO_PHAN, UTH.FO_FAN] ∧ linked then .ok []
  else if first ∈ [UTH.KHO_KHAI, UTH.KHO_KHWAI, UTH.DO_DEK, UTH.THO_THAHAN, UTH.BO_BAIMAI,
      UTH.PHO_PHAN, UTH.FO_FAN, UTH.KO_KAI, UTH.TO_TAO, UTH.PO_PLA] then do
    if ← notRoAt w stop (pos + 2) then
      pure [{ pos := pos + 2, pre := none, iConsSound := snd, iConsClass := cls, iCons2 := SC.RA }]
    else pure []
  else .ok []

/-- The "-au + ra" cases, lines 380-453. -/
def auraRo (pos stop : Nat) (first : U16) (snd : InitConsSound) (cls : InitConsClass) :
    Res (List PartialSyl) :=
  if pos + 2 < stop then do
    let next ← strAt w (pos + 2)
    if UTH.RO_RUA ≠ next then
      let ra (pos : Nat) (v : Vowel) : PartialSyl :=
        { pos, pre := some (preSylOf snd cls VW.AUU false false), iConsSound := .RA,
          iConsClass := .LOWS, iCons2 := SC.NONE, vowel := v, eConsClass := .NONE, tone := .SAMAN,
          isComplete := true }
      if isSylStart ct next then
        if first ∈ auraCons then pure [ra (pos + 2) VW.A] else pure []
      else if UTH.SARA_I = next ∧ UTH.BO_BAIMAI = first then pure [ra (pos + 3) VW.I]
      else if UTH.SARA_A = next ∧ UTH.CHO_CHAN = first then pure [ra (pos + 3) VW.A]
      else pure []
    else pure []
  else .ok []

/-- The switch on the second consonant, lines 313-494. -/
def clusters (pos stop : Nat) (linked : Bool) (first sec : U16) (snd : InitConsSound)
    (cls : InitConsClass) : Res (List PartialSyl) :=
  if sec = UTH.RO_RUA then do
    let a ← clusterRo w pos stop linked first snd cls
    let b ← auraRo ct w pos stop first snd cls
    pure (a ++ b)
  else if sec = UTH.LO_LING then
    if first ∈ [UTH.KO_KAI, UTH.KHO_KHAI, UTH.KHO_KHWAI, UTH.BO_BAIMAI, UTH.PO_PLA, UTH.PHO_PHUNG,
        UTH.PHO_PHAN, UTH.FO_FAN] ∧ linked = false then
      .ok [{ pos := pos + 2, pre := none, iConsSound := snd, iConsClass := cls, iCons2 := SC.LA }]
    else .ok []
  else if sec = UTH.WO_WAEN then
    if first ∈ [UTH.KO_KAI, UTH.KHO_KHAI, UTH.KHO_KHWAI] ∧ linked = false then
      .ok [{ pos := pos + 2, pre := none, iConsSound := snd, iConsClass := cls, iCons2 := SC.WA }]
    else .ok []
  else .ok []

/-- Two consonants, lines 307-554. -/
def twoCons (pos stop : Nat) (linked : Bool) (first sec : U16) (snd : InitConsSound)
    (cls : InitConsClass) : Res (List PartialSyl) := do
  let snd2 ← initConsSound sec
  let cls2 ← initConsClass sec
  let a ← clusters ct w pos stop linked first sec snd cls
  let b ←
    if UTH.HO_HIP = first ∧ InitConsClass.LOWS = cls2 then do
      if ← notRoRo w stop (pos + 2) sec then
        pure [{ pos := pos + 2, pre := none, iConsSound := snd2, iConsClass := .HIGH }]
      else pure []
    else pure []
  let c ← do
    if ← notRoRo w stop (pos + 2) sec then
      pure [{ pos := pos + 2, pre := some (preSylOf snd cls VW.A true true), iConsSound := snd2,
              iConsClass := if InitConsClass.LOWS = cls2 then cls else cls2 }]
    else pure []
  let d ←
    if UTH.BO_BAIMAI = first ∧ UTH.DO_DEK = sec ∧ pos + 2 < stop then do
      let next ← strAt w (pos + 2)
      if UTH.SARA_I = next ∨ UTH.SARA_II = next then
        pure [{ pos := pos + 1, pre := none, iConsSound := snd, iConsClass := cls,
                iCons2 := SC.NONE, vowel := VW.AUU, eConsClass := .NONE, tone := .SAMAN,
                isComplete := true }]
      else pure []
    else pure []
  pure (a ++ b ++ c ++ d)

/-- Consonant + RU, lines 555-776. -/
def consRu (pos stop : Nat) (first : U16) (snd : InitConsSound) (cls : InitConsClass) :
    Res (List PartialSyl) := do
  let isRuu ←
    if pos + 2 ≥ stop then pure false else do
      let c ← strAt w (pos + 2)
      pure (decide (UTH.LAKKHANGYAO = c ∨ UTH.SARA_AA = c))
  if isRuu then pure [] else
  let clus (c2 : SecInitCons) (v : Vowel) : PartialSyl :=
    { pos := pos + 2, pre := none, iConsSound := snd, iConsClass := cls, iCons2 := c2, vowel := v }
  let sep (cls2 : InitConsClass) (v : Vowel) : PartialSyl :=
    { pos := pos + 2, pre := some (preSylOf snd cls VW.A true true), iConsSound := .RA,
      iConsClass := cls2, iCons2 := SC.NONE, vowel := v }
  let sepDone : PartialSyl :=
    { sep .LOWS VW.UE with eConsClass := .NONE, tone := .SAMAN, isComplete := true }
  if first ∈ [UTH.KO_KAI, UTH.TO_TAO, UTH.THO_THAHAN, UTH.PO_PLA] then pure [clus SC.RA VW.I]
  else if first ∈ [UTH.SO_SUA, UTH.SO_SALA] then pure [clus SC.NONE VW.I, sep cls VW.I]
  else if first ∈ [UTH.WO_WAEN] then pure [clus SC.RA VW.UE]
  else if first ∈ [UTH.NO_NU] then pure [sep .LOWS VW.UE]
  else if first ∈ [UTH.KHO_KHWAI, UTH.PHO_PHAN] then do
    let hasEnd ←
      if pos + 2 < stop then do
        let c ← strAt w (pos + 2)
        if ct.isCons c then pure (decide (EndConsClass.NONE ≠ (← endConsClass c))) else pure false
      else pure false
    if hasEnd then pure [clus SC.RA VW.UE] else pure [sepDone]
  else
    pure ((if UTH.HO_HIP ≠ first then [clus SC.RA VW.I] else [])
      ++ [sep .LOWS VW.I]
      ++ (if UTH.HO_HIP ≠ first then [clus SC.RA VW.UE] else [])
      ++ [sep .LOWS VW.UE, sepDone])

/-- `MatchInitCons`, parser.cxx:288-801 -/
def matchInitCons (pos stop : Nat) (linked : Bool) : Res (List PartialSyl) := do
  let first ← strAt w pos
  if ct.isCons first = false then pure [] else
  let snd ← initConsSound first
  let cls ← initConsClass first
  let a ←
    if pos + 1 < stop then do
      let sec ← strAt w (pos + 1)
      if ct.isCons sec then twoCons ct w pos stop linked first sec snd cls
      else if UTH.RU = sec then consRu ct w pos stop first snd cls
      else pure []
    else pure []
  let c ←
    if pos + 1 < stop then do
      if isSylStart ct (← strAt w (pos + 1)) then
        pure [{ pos := pos + 1, pre := none, iConsSound := snd, iConsClass := cls,
                iCons2 := SC.NONE, vowel := VW.A, eConsClass := .NONE, tone := .SAMAN,
                isComplete := true }]
      else pure []
    else pure []
  pure (a ++ [{ pos := pos + 1, pre := none, iConsSound := snd, iConsClass := cls }] ++ c)

/-! ## Karan, parser.cxx:803-870 -/

/-- parser.cxx:803-819 -/
def matchKaranSimple (pos stop : Nat) : Res Nat :=
  if pos + 1 < stop then do
    if UTH.THANTHAKHAT = (← strAt w (pos + 1)) then
      if ct.isCons (← strAt w pos) then pure (pos + 2) else pure pos
    else pure pos
  else .ok pos

/-- parser.cxx:821-841 -/
def matchKaranIU (pos stop : Nat) : Res Nat :=
  if pos + 2 < stop then do
    if UTH.THANTHAKHAT = (← strAt w (pos + 2)) then
      if ct.isCons (← strAt w pos) then
        let c ← strAt w (pos + 1)
        if UTH.SARA_I = c ∨ UTH.SARA_U = c then pure (pos + 3) else pure pos
      else pure pos
    else pure pos
  else .ok pos

/-- parser.cxx:843-870 -/
def matchKaranComplex (pos stop : Nat) : Res Nat := do
  let p ← matchKaranSimple ct w pos stop
  if p ≠ pos then pure p
  else if pos + 2 < stop then do
    if UTH.THANTHAKHAT = (← strAt w (pos + 2)) then
      if ct.isCons (← strAt w pos) then
        let c ← strAt w (pos + 1)
        if ct.isCons c = true ∨ UTH.SARA_I = c ∨ UTH.SARA_U = c then pure (pos + 3) else pure pos
      else pure pos
    else pure pos
  else pure pos

/-! ## Ending consonants, parser.cxx:872-1006 -/

/-- The test of lines 892-893 and 947-949: a consonant with an ending class, not excluded. -/
def endConsOf (c : U16) (excl : List U16) : Res (Option EndConsClass) :=
  if ct.isCons c then do
    let e ← endConsClass c
    if EndConsClass.NONE ≠ e ∧ c ∉ excl then pure (some e) else pure none
  else .ok none

/-- `EatEndConsSimple`, parser.cxx:881-906 -/
def eatEndConsSimple (stop : Nat) (p : PartialSyl) (excl : List U16) : Res (List Emit) := do
  let c ← strAt w p.pos
  match ← endConsOf ct c excl with
  | none => pure []
  | some e =>
    let k ← matchKaranComplex ct w (p.pos + 1) stop
    pure [⟨k, false, { p with eConsClass := e, pos := k }⟩]

/-- parser.cxx:918-927 -/
def afterClusterVowels : List U16 := [UTH.RU, UTH.SARA_A, UTH.MAI_HAN_AKAT, UTH.SARA_AA, UTH.SARA_I,
  UTH.SARA_II, UTH.SARA_U, UTH.SARA_UU]
/-- parser.cxx:930-936 -/
def eConsWithRo : List U16 := [UTH.KO_KAI, UTH.KHO_KHWAI, UTH.CHO_CHANG, UTH.TO_TAO, UTH.THO_THAHAN]
/-- parser.cxx:939-944 -/
def eConsWithIU : List U16 := [UTH.THO_PHUTHAO, UTH.TO_TAO, UTH.THO_THONG, UTH.RO_RUA]

/-- `i >= stopPos || IsSylStart (u16word.at (i))` -/
def endOrSylStart (stop i : Nat) : Res Bool :=
  if i ≥ stop then .ok true else do pure (isSylStart ct (← strAt w i))

/-- The linking part of `EatEndConsComplex`, lines 961-1000 (`p` has its ending class set). -/
def linkPart (stop : Nat) (p : PartialSyl) (firstE : U16) : Res (List Emit) :=
  if p.pos + 1 < stop then do
    let sec ← strAt w (p.pos + 1)
    let link (next : U16) : List Emit :=
      if next ∈ afterClusterVowels ∨ ct.isCons next = true then [⟨p.pos, true, p⟩] else []
    if ct.isCons sec then
      let cEnd := p.pos + 2
      let a ←
        if UTH.RO_RUA = sec ∧ firstE ∈ eConsWithRo then do
          if ← endOrSylStart ct w stop cEnd then pure [(⟨cEnd, false, p⟩ : Emit)] else pure []
        else pure []
      if cEnd = stop then pure a
      else do
        let next ← strAt w cEnd
        pure (a ++ link next)
    else if UTH.SARA_I = sec ∨ UTH.SARA_U = sec then
      let cEnd := p.pos + 2
      let isIU ←
        if firstE ∈ eConsWithIU then endOrSylStart ct w stop cEnd else pure false
      if isIU then
        if cEnd = stop then pure [⟨cEnd, false, p⟩]
        else pure ([⟨cEnd, false, p⟩] ++ link sec)
      else pure (link sec)
    else pure (link sec)
  else .ok []

/-- `EatEndConsComplex`, parser.cxx:908-1006 -/
def eatEndConsComplex (stop : Nat) (p : PartialSyl) (excl : List U16) : Res (List Emit) := do
  let c ← strAt w p.pos
  match ← endConsOf ct c excl with
  | none => pure []
  | some e =>
    let p := { p with eConsClass := e }
    let k ← matchKaranComplex ct w (p.pos + 1) stop
    let a : List Emit := [⟨k, false, p⟩]
    if k > p.pos + 1 then pure a
    else do
      let b ← linkPart ct w stop p c
      pure (a ++ b)

/-! ## Syllables starting with a consonant, parser.cxx:1008-1269 -/

/-- Read an optional tone mark `c` at `p.pos`. -/
def readTone (p : PartialSyl) (c : U16) : Res PartialSyl :=
  if ct.isTone c then do
    let t ← thCharToTone c
    pure { p with tone := t, pos := p.pos + 1 }
  else .ok p

/-- `p.pos = MatchKaranSimple (…); AddState (pool, p.pos, state, p)` -/
def karanEmit (stop : Nat) (p : PartialSyl) : Res (PartialSyl × List Emit) := do
  let k ← matchKaranSimple ct w p.pos stop
  let p := { p with pos := k }
  pure (p, [⟨k, false, p⟩])

/-- `p.pos < state.stopPos && u16word.at (p.pos) == c` -/
def isCharAt (stop i : Nat) (c : U16) : Res Bool :=
  if i < stop then do pure (decide (c = (← strAt w i))) else .ok false

/-- MAI HAN AKAT branch, lines 1029-1066 (`p.pos` after the vowel). -/
def hanAkat (stop : Nat) (p : PartialSyl) : Res (List Emit) :=
  if p.pos ≥ stop then .ok [] else do
  let p ← readTone ct p (← strAt w p.pos)
  if p.pos ≥ stop then pure [] else
  let c ← strAt w p.pos
  if UTH.WO_WAEN = c then
    let q := p.pos + 1
    let p ←
      if ← isCharAt w stop q UTH.SARA_A then
        pure { p with pos := q + 1, vowel := VW.UA, eConsClass := .NONE }
      else pure { p with pos := q, vowel := VW.UAA, eConsClass := .NONE }
    let (_, es) ← karanEmit ct w stop p
    pure es
  else
    let p := { p with vowel := VW.A }
    if Tone.SAMAN = p.tone then eatEndConsComplex ct w stop p []
    else eatEndConsSimple ct w stop p []

/-- End consonant after an above/below vowel, lines 1101-1131. -/
def upBlEnd (stop : Nat) (p : PartialSyl) : Res (List Emit) :=
  if p.pos < stop then do
    let c ← strAt w p.pos
    if ct.isLdVowel c then pure []
    else if VW.UEE = p.vowel then
      if UTH.O_ANG = c then do
        let (_, es) ← karanEmit ct w stop { p with eConsClass := .NONE, pos := p.pos + 1 }
        pure es
      else eatEndConsSimple ct w stop p []
    else
      let excl := if VW.I = p.vowel ∨ VW.II = p.vowel then [UTH.YO_YAK] else []
      if VW.UE = p.vowel ∨ Tone.SAMAN ≠ p.tone then eatEndConsSimple ct w stop p excl
      else eatEndConsComplex ct w stop p excl
  else .ok []

/-- `p.pos >= stopPos || th_wcisldvowel (u16word.at (p.pos)) || EVowel::UEE != p.vowel`,
lines 1081-1083 -/
def upBlOpen (stop : Nat) (p : PartialSyl) : Res Bool :=
  if p.pos ≥ stop then .ok true else do
    let c ← strAt w p.pos
    if ct.isLdVowel c then pure true else pure (decide (VW.UEE ≠ p.vowel))

/-- Above/below vowel branch, lines 1067-1131 (`c` the vowel, `p.pos` at it). -/
def upBlVowel (stop : Nat) (p : PartialSyl) (c : U16) : Res (List Emit) := do
  let v ← thCharToAboveBelowVowel c
  let p := { p with vowel := v, pos := p.pos + 1 }
  let p ← if p.pos < stop then do readTone ct p (← strAt w p.pos) else pure p
  if ← upBlOpen ct w stop p then
    let p := { p with eConsClass := .NONE }
    let k ← matchKaranSimple ct w p.pos stop
    if k = p.pos then
      let k2 ← matchKaranIU ct w p.pos stop
      if k2 ≠ p.pos then pure [⟨k2, false, p⟩]
      else do
        let es ← upBlEnd ct w stop p
        pure ([⟨p.pos, false, p⟩] ++ es)
    else
      let p := { p with pos := k }
      let es ← upBlEnd ct w stop p
      pure ([⟨k, false, p⟩] ++ es)
  else upBlEnd ct w stop p

/-- MAITAIKHU branch, lines 1132-1146 (`p.pos` at it). -/
def maitaikhuO (stop : Nat) (p : PartialSyl) : Res (List Emit) := do
  if ← isCharAt w stop (p.pos + 1) UTH.O_ANG then
    let p := { p with pos := p.pos + 2 }
    if p.pos ≥ stop then pure [] else
    let p := { p with vowel := VW.AU }
    let k ← matchKaranSimple ct w p.pos stop
    if k < stop then eatEndConsSimple ct w stop { p with pos := k } [] else pure []
  else pure []

/-- RO RUA case, lines 1212-1240 (`p.pos` after RO RUA). -/
def roRua (stop : Nat) (p : PartialSyl) : Res (List Emit) := do
  let (p, a) ←
    if InitConsSound.RA ≠ p.iConsSound then
      karanEmit ct w stop { p with vowel := VW.AUU, eConsClass := .KON }
    else pure (p, [])
  if ← isCharAt w stop p.pos UTH.RO_RUA then
    let p := { p with pos := p.pos + 1, vowel := VW.A, eConsClass := .KON }
    let k ← matchKaranSimple ct w p.pos stop
    let b : List Emit := [⟨k, false, p⟩]
    if k = p.pos ∧ p.pos < stop then do
      let es ← eatEndConsComplex ct w stop p []
      pure (a ++ b ++ es)
    else pure (a ++ b)
  else pure a

/-- The `default` case, lines 1242-1265 (`c` at `p.pos`). -/
def consCons (stop : Nat) (linked : Bool) (p : PartialSyl) (c : U16) : Res (List Emit) :=
  if ct.isCons c then
    if VW.INVALID = p.vowel then do
      if EndConsClass.NONE ≠ (← endConsClass c) ∧ SC.WA ≠ p.iCons2 ∧ linked = false then
        eatEndConsSimple ct w stop { p with vowel := VW.O } [UTH.YO_YAK, UTH.WO_WAEN]
      else pure []
    else do
      let p := { p with eConsClass := .NONE }
      let es ← eatEndConsComplex ct w stop p [UTH.WO_WAEN]
      pure ([⟨p.pos, false, p⟩] ++ es)
  else .ok []

/-- The last branch, lines 1147-1267 (`p.pos` at `c`). -/
def plainCons (stop : Nat) (linked : Bool) (p : PartialSyl) (c : U16) : Res (List Emit) := do
  let p ← readTone ct p c
  if p.pos ≥ stop then pure [] else
  let c ← strAt w p.pos
  let q := { p with pos := p.pos + 1 }
  if c = UTH.SARA_A then do
    let (_, es) ← karanEmit ct w stop { q with vowel := VW.A, eConsClass := .NONE }
    pure es
  else if c = UTH.SARA_AA then do
    let (p, a) ← karanEmit ct w stop { q with vowel := VW.AA, eConsClass := .NONE }
    if p.pos < stop then do
      let es ← eatEndConsComplex ct w stop p []
      pure (a ++ es)
    else pure a
  else if c = UTH.SARA_AM then do
    let (_, es) ← karanEmit ct w stop { q with vowel := VW.A, eConsClass := .KOM }
    pure es
  else if c = UTH.WO_WAEN then
    if q.pos < stop then eatEndConsSimple ct w stop { q with vowel := VW.UAA } [] else pure []
  else if c = UTH.O_ANG then do
    let (p, a) ← karanEmit ct w stop { q with vowel := VW.AUU, eConsClass := .NONE }
    if p.pos < stop then do
      let es ← eatEndConsSimple ct w stop p []
      pure (a ++ es)
    else pure a
  else if c = UTH.RO_RUA then roRua ct w stop q
  else consCons ct w stop linked p c

/-- Body of the loop of `ParseThCons`, lines 1019-1268. -/
def thConsOne (stop : Nat) (linked : Bool) (p : PartialSyl) : Res (List Emit) :=
  if p.pos ≥ stop then .ok []
  else if p.isComplete then .ok [⟨p.pos, false, p⟩]
  else do
    let c ← strAt w p.pos
    let p := { p with tone := .SAMAN }
    if UTH.MAI_HAN_AKAT = c then hanAkat ct w stop { p with pos := p.pos + 1 }
    else if ct.isUpVowel c || ct.isBlVowel c then upBlVowel ct w stop p c
    else if UTH.MAITAIKHU = c then maitaikhuO ct w stop p
    else plainCons ct w stop linked p c

/-- `ParseThCons`, parser.cxx:1008-1269 -/
def parseThCons (pos stop : Nat) (linked : Bool) : Res (List Emit) := do
  let ps ← matchInitCons ct w pos stop linked
  concatRes (thConsOne ct w stop linked) ps

/-! ## SARA E, parser.cxx:1271-1488 -/

/-- `!p.hasPreSyl || EInitConsSound::A != p.iConsSound` -/
def notPreA (p : PartialSyl) : Bool := p.pre.isNone || decide (InitConsSound.A ≠ p.iConsSound)

/-- lines 1304-1322 (`p.pos` after SARA I) -/
def saraEI (stop : Nat) (p : PartialSyl) : Res (List Emit) :=
  let p := { p with vowel := VW.OEE }
  if p.pos ≥ stop then .ok [] else do
  let p ← readTone ct p (← strAt w p.pos)
  let k ← matchKaranSimple ct w p.pos stop
  if k < stop then eatEndConsSimple ct w stop { p with pos := k } [] else pure []

/-- lines 1323-1352 and 1353-1382 (`p.pos` after SARA II / UEE): the shared shape; `mid` is YO YAK /
O ANG, `vs`, `vl` the short and long vowels. -/
def saraEMid (stop : Nat) (mid : U16) (vs vl : Vowel) (complex : Bool) (p : PartialSyl) :
    Res (List Emit) :=
  if p.pos ≥ stop then .ok [] else do
  let p ← readTone ct p (← strAt w p.pos)
  if ← isCharAt w stop p.pos mid then
    let q := p.pos + 1
    let isShort ← isCharAt w stop q UTH.SARA_A
    let p := if isShort then { p with pos := q + 1, vowel := vs, eConsClass := .NONE }
      else { p with pos := q, vowel := vl, eConsClass := .NONE }
    let (p, a) ← karanEmit ct w stop p
    if vl = p.vowel ∧ p.pos < stop then do
      let es ← if complex then eatEndConsComplex ct w stop p [] else eatEndConsSimple ct w stop p []
      pure (a ++ es)
    else pure a
  else pure []

/-- The `default` of the inner switch, lines 1471-1484 (`p.pos` at the next character). -/
def saraEPlain (stop : Nat) (p : PartialSyl) : Res (List Emit) :=
  if notPreA p then do
    let (p, a) ← karanEmit ct w stop { p with vowel := VW.EE, eConsClass := .NONE }
    if p.pos < stop then do
      let es ← eatEndConsComplex ct w stop p []
      pure (a ++ es)
    else pure a
  else .ok []

/-- The inner switch, lines 1405-1485 (`c` at `p.pos`). -/
def saraERest (stop : Nat) (p : PartialSyl) (c : U16) : Res (List Emit) :=
  if c = UTH.O_ANG then do
    let a ←
      if notPreA p then do
        let k ← matchKaranSimple ct w p.pos stop
        pure [(⟨k, false, { p with vowel := VW.EE, eConsClass := .NONE }⟩ : Emit)]
      else pure []
    let q := p.pos + 1
    let isShort ← isCharAt w stop q UTH.SARA_A
    let p := if isShort then { p with pos := q + 1, vowel := VW.OE, eConsClass := .NONE }
      else { p with pos := q, vowel := VW.OEE, eConsClass := .NONE }
    let (_, b) ← karanEmit ct w stop p
    pure (a ++ b)
  else if c = UTH.SARA_A then
    if notPreA p then do
      let (_, a) ← karanEmit ct w stop
        { p with pos := p.pos + 1, vowel := VW.E, eConsClass := .NONE }
      pure a
    else .ok []
  else if c = UTH.SARA_AA then do
    let q := p.pos + 1
    let isShort ← isCharAt w stop q UTH.SARA_A
    let p := if isShort then { p with pos := q + 1, vowel := VW.AU, eConsClass := .NONE }
      else { p with pos := q, vowel := VW.A, eConsClass := .KOEW }
    let (_, a) ← karanEmit ct w stop p
    pure a
  else if c = UTH.YO_YAK then do
    if ← endOrSylStart ct w stop (p.pos + 1) then
      let (_, a) ← karanEmit ct w stop
        { p with pos := p.pos + 1, vowel := VW.OEE, eConsClass := .KOEY }
      pure a
    else saraEPlain ct w stop p
  else saraEPlain ct w stop p

/-- Body of the loop of `ParseSaraE`, lines 1287-1487. -/
def saraEOne (stop : Nat) (p : PartialSyl) : Res (List Emit) :=
  if p.isComplete then .ok [] else
  let p := { p with tone := .SAMAN }
  if p.pos ≥ stop then
    if notPreA p then .ok [⟨p.pos, false, { p with vowel := VW.EE, eConsClass := .NONE }⟩]
    else .ok []
  else do
    let c ← strAt w p.pos
    let q := { p with pos := p.pos + 1 }
    if c = UTH.SARA_I then saraEI ct w stop q
    else if c = UTH.SARA_II then saraEMid ct w stop UTH.YO_YAK VW.IA VW.IAA true q
    else if c = UTH.SARA_UEE then saraEMid ct w stop UTH.O_ANG VW.UEA VW.UEAA false q
    else if c = UTH.MAITAIKHU then
      if q.pos < stop then eatEndConsSimple ct w stop { q with vowel := VW.E } [] else pure []
    else do
      let p' ← readTone ct p c
      if ct.isTone c = true ∧ p'.pos ≥ stop then
        pure [⟨p'.pos, false, { p' with vowel := VW.EE, eConsClass := .NONE }⟩]
      else saraERest ct w stop p' (← strAt w p'.pos)

/-- `ParseSaraE`, parser.cxx:1271-1488 -/
def parseSaraE (pos stop : Nat) (linked : Bool) : Res (List Emit) :=
  if pos + 1 ≥ stop then .ok [] else do
  let ps ← matchInitCons ct w (pos + 1) stop linked
  concatRes (saraEOne ct w stop) ps

/-! ## Other leading vowels, parser.cxx:1490-1610 -/

/-- SARA AE, lines 1526-1563 -/
def saraAe (stop : Nat) (p : PartialSyl) : Res (List Emit) := do
  let (p, needsEnd) ←
    if p.pos < stop then do
      let c ← strAt w p.pos
      if c = UTH.SARA_A then pure ({ p with pos := p.pos + 1, vowel := VW.AE }, false)
      else if c = UTH.MAITAIKHU then pure ({ p with pos := p.pos + 1, vowel := VW.AE }, true)
      else pure ({ p with vowel := VW.AEE }, false)
    else pure ({ p with vowel := VW.AEE }, false)
  let (p, a) ←
    if needsEnd then pure (p, []) else karanEmit ct w stop { p with eConsClass := .NONE }
  if p.pos < stop ∧ (VW.AEE = p.vowel ∨ needsEnd = true) then do
    let es ← eatEndConsSimple ct w stop p []
    pure (a ++ es)
  else pure a

/-- SARA O, lines 1564-1588 -/
def saraO (stop : Nat) (p : PartialSyl) : Res (List Emit) := do
  let isShort ← isCharAt w stop p.pos UTH.SARA_A
  let p := if isShort then { p with pos := p.pos + 1, vowel := VW.O, eConsClass := .NONE }
    else { p with vowel := VW.OO, eConsClass := .NONE }
  let k ← matchKaranSimple ct w p.pos stop
  let k2 ← if k = p.pos then matchKaranIU ct w p.pos stop else pure k
  if k = p.pos ∧ k2 ≠ p.pos then pure [⟨k2, false, p⟩]
  else
    let p := { p with pos := k2 }
    let a : List Emit := [⟨p.pos, false, p⟩]
    if VW.OO = p.vowel ∧ p.pos < stop then do
      let es ← eatEndConsComplex ct w stop p []
      pure (a ++ es)
    else pure a

/-- SARA AI MAIMALAI, lines 1589-1601 -/
def saraAiMalai (stop : Nat) (p : PartialSyl) : Res (List Emit) := do
  let p := { p with vowel := VW.A, eConsClass := .KOEY }
  let a ←
    if ← isCharAt w stop p.pos UTH.YO_YAK then do
      let ok ← if p.pos + 1 = stop then pure true else do pure (isSylStart ct (← strAt w (p.pos + 1)))
      if ok then pure [(⟨p.pos + 1, false, p⟩ : Emit)] else pure []
    else pure []
  let (_, b) ← karanEmit ct w stop p
  pure (a ++ b)

/-- Body of the loop of `ParseOtherLV`, lines 1507-1609. -/
def otherLVOne (stop : Nat) (ldv : U16) (p : PartialSyl) : Res (List Emit) :=
  if p.isComplete then .ok [] else do
  let p := { p with tone := .SAMAN }
  let p ← if p.pos < stop then do readTone ct p (← strAt w p.pos) else pure p
  if ldv = UTH.SARA_AE then saraAe ct w stop p
  else if ldv = UTH.SARA_O then saraO ct w stop p
  else if ldv = UTH.SARA_AI_MAIMALAI then saraAiMalai ct w stop p
  else if ldv = UTH.SARA_AI_MAIMUAN then do
    let (_, a) ← karanEmit ct w stop { p with vowel := VW.A, eConsClass := .KOEY }
    pure a
  else pure []

/-- `ParseOtherLV`, parser.cxx:1490-1610 -/
def parseOtherLV (pos stop : Nat) (linked : Bool) : Res (List Emit) := do
  let ldv ← strAt w pos
  let ps ← matchInitCons ct w (pos + 1) stop linked
  concatRes (otherLVOne ct w stop ldv) ps

/-! ## RU and LU, parser.cxx:1612-1674 -/

/-- `ParseRuLu`, parser.cxx:1612-1674 -/
def parseRuLu (pos stop : Nat) : Res (List Emit) := do
  let first ← strAt w pos
  let p : PartialSyl :=
    { pos := pos + 1, pre := none, iConsSound := if UTH.LU = first then .LA else .RA,
      iConsClass := .LOWS, iCons2 := SC.NONE, tone := .SAMAN }
  if pos + 1 ≥ stop then pure [⟨pos + 1, false, { p with vowel := VW.UE, eConsClass := .NONE }⟩]
  else do
    let sec ← strAt w (pos + 1)
    if UTH.LAKKHANGYAO = sec ∨ UTH.SARA_AA = sec then
      pure [⟨pos + 2, false, { p with vowel := VW.UEE, eConsClass := .NONE }⟩]
    else if ct.isCons sec then do
      let e ← endConsClass sec
      let alone ←
        if EndConsClass.NONE = e then pure true
        else if pos + 2 < stop then do pure (!isSylStart ct (← strAt w (pos + 2)))
        else pure false
      if alone then pure [⟨pos + 1, false, { p with vowel := VW.UE, eConsClass := .NONE }⟩]
      else if sec ∈ [UTH.NO_NEN, UTH.THO_THAHAN, UTH.SO_RUSI] then
        eatEndConsComplex ct w stop { p with vowel := VW.I } []
      else eatEndConsComplex ct w stop { p with vowel := VW.UE } []
    else pure []

/-! ## Exceptions and abbreviations -/

/-- Body of `FindExceptions` for one accepted match, parser.cxx:1715-1719: the strings of the entry,
shifted, are added to the state's DAG. -/
def exceptDag (s : PState) (strs : List SylString) : PronunDAG :=
  strs.foldl (fun d x => PronunDAG.addSylString d s.pos (SylString.shiftEndPos x s.pos)) s.dag

/-- `FindExceptions`, parser.cxx:1695-1725: the states added. The loop is over the successive matches
of the dictionary; each advances, so the length of the word bounds it. -/
def exceptLoop (s : PState) : Nat → Match → Res (List PState)
  | 0, _ => .diverge
  | fuel + 1, m =>
    match m.findNext with
    | (_, false) => .ok []
    | (m, true) =>
      if m.getCurPos > s.stop then exceptLoop s fuel m
      else do
        let skip ←
          if m.getCurPos < s.stop then do pure (!isSylStart ct (← strAt w m.getCurPos)) else pure false
        if skip then exceptLoop s fuel m
        else do
          let strs ← SylString.makeSylStrings (← m.getData)
          let rest ← exceptLoop s fuel m
          pure (⟨m.getCurPos, s.stop, exceptDag s strs, false⟩ :: rest)

/-- parser.cxx:1695-1725 -/
def findExceptions (s : PState) (dict : Dict) : Res (List PState) :=
  exceptLoop ct w s (w.length + 1) (Match.new w s.pos dict)

/-- The scan of lines 1744-1757: over the characters from `abbrEnd` up to the stop position.
Returns the end and whether it was ended by a period; `none` is `return false`. -/
def abbrScan : (rest : U16Str) → (abbrEnd stop nCons : Nat) → Res (Option (Nat × Nat × Bool))
  | rest, e, stop, n =>
    if e < stop then
      match rest with
      | [] => .throw .outOfRange
      | c :: cs =>
        if ct.isCons c then
          if n + 1 > 4 then .ok none else abbrScan cs (e + 1) stop (n + 1)
        else if c = ch!"." then .ok (some (e + 1, n, true))
        else .ok none
    else .ok (some (e, n, false))

/-- The loop of lines 1762-1788. -/
def abbrDag : Nat → Nat → Nat → PronunDAG → Res PronunDAG
  | 0, _, _, _ => .diverge
  | fuel + 1, pos, abbrEnd, d =>
    if pos < abbrEnd then do
      let c ← strAt w pos
      if ct.isCons c then do
        let sylEnd ←
          if pos + 1 < abbrEnd then do
            if ct.isCons (← strAt w (pos + 1)) then pure (pos + 1) else pure (pos + 2)
          else pure (pos + 1)
        let snd ← initConsSound c
        let cls ← initConsClass c
        let syl := Syl.mk5 snd SC.NONE VW.AUU .NONE
          (if InitConsClass.HIGH = cls then .CHATTAWA else .SAMAN) (sylEnd : Int)
        abbrDag fuel sylEnd abbrEnd (d.addEdge pos sylEnd syl).1
      else
        abbrDag fuel (pos + 1) abbrEnd
          (d.addEdge pos ((pos : Int) + 1) (Syl.lit ((pos : Int) + 1) ((w.drop pos).take 1))).1
    else .ok d

/-- The guard of lines 1734-1739: at the beginning, or after a space or a period. -/
def abbrAllowed (pos : Nat) : Res Bool :=
  if pos > 0 then do
    let c ← strAt w (pos - 1)
    pure (decide (c = ch!" " ∨ c = ch!"."))
  else .ok true

/-- `FindAbbr`, parser.cxx:1727-1792: the state added, or `none` for `false`. -/
def findAbbr (s : PState) : Res (Option PState) := do
  if ← abbrAllowed w s.pos then
    match ← abbrScan ct (w.drop s.pos) s.pos s.stop 0 with
    | none => pure none
    | some (abbrEnd, nCons, dot) =>
      if nCons > 1 ∧ dot = false then pure none
      else do
        let d ← abbrDag ct w (w.length + 2) s.pos abbrEnd s.dag
        pure (some ⟨abbrEnd, s.stop, d, false⟩)
  else pure none

/-! ## Tokens, parser.cxx:1794-1843 -/

/-- parser.cxx:1794-1799 -/
def isWordChar (c : U16) : Bool :=
  ct.isCons c || ct.isVowel c || ct.isTone c || decide (UTH.MAITAIKHU = c)
    || decide (UTH.THANTHAKHAT = c)

/-- parser.cxx:1801-1805 -/
def isThaiTokenChar (c : U16) : Bool := decide (c = ch!".") || isWordChar ct c

/-- `SkipNonThai`, parser.cxx:1816-1823: the first token character at or after `start`.
(`SkipNonWord`, 1807-1814, is never called.) -/
def skipNonThai (start : Nat) : Nat :=
  start + ((w.drop start).takeWhile fun c => !isThaiTokenChar ct c).length

/-- The loop of lines 1838-1840 over the characters from `start`. -/
def stopLoop : (rest : U16Str) → (start : Nat) → (nextBrk : Int) → Res Nat
  | [], start, nextBrk => if (start : Int) < nextBrk then .throw .outOfRange else .ok start
  | c :: cs, start, nextBrk =>
    if (start : Int) < nextBrk then
      if isThaiTokenChar ct c then stopLoop cs (start + 1) nextBrk else .ok start
    else .ok start

/-- `NextWordStop`, parser.cxx:1825-1843 -/
def nextWordStop (start : Nat) (brk : List Int) : Res Nat :=
  let nextBrk := (brk.find? fun b => decide (b > (start : Int))).getD (w.length : Int)
  stopLoop ct (w.drop start) start nextBrk

/-! ## Main loop, parser.cxx:1845-1923 -/

/-- Lines 1852-1865 and 1873-1886: swallow a run of non-token characters as one literal and find the
next stop. -/
def refresh (brk : List Int) (s : PState) : Res PState := do
  let beginPos := skipNonThai ct w s.pos
  let s :=
    if beginPos > s.pos then
      { s with
        dag := (s.dag.addEdge s.pos beginPos
          (Syl.lit beginPos ((w.drop s.pos).take (beginPos - s.pos)))).1
        pos := beginPos }
    else s
  if s.pos < w.length then do
    let stop ← nextWordStop ct w s.pos brk
    pure { s with stop := stop }
  else pure { s with stop := s.pos }

/-- Lines 1909-1916: move the in-edges of `pos` to `pos + 1`, one by one. -/
def stretchDot (pos : Nat) : Nat → PronunDAG → Res PronunDAG
  | 0, _ => .diverge
  | fuel + 1, d =>
    match d.inEdges pos with
    | [] => .ok d
    | i :: _ =>
      let d1 := (d.addEdge i.target ((pos : Int) + 1) (i.val.setEndPos ((pos : Int) + 1))).1
      stretchDot pos fuel (d1.removeEdge i.target pos i.val).1

/-- The syllable parsers tried on the character at `s.pos`, lines 1897-1919: the states added. -/
def parseChar (s : PState) (pool : StatePool) : Res StatePool := do
  let c ← strAt w s.pos
  if ct.isCons c then do pure (addEmits pool s (← parseThCons ct w s.pos s.stop s.linked))
  else if UTH.SARA_E = c then do pure (addEmits pool s (← parseSaraE ct w s.pos s.stop s.linked))
  else if ct.isLdVowel c then do pure (addEmits pool s (← parseOtherLV ct w s.pos s.stop s.linked))
  else if UTH.RU = c ∨ UTH.LU = c then do pure (addEmits pool s (← parseRuLu ct w s.pos s.stop))
  else if c = ch!"." then do
    let d ← stretchDot s.pos (s.dag.inDegree s.pos + 1) s.dag
    pure (pool.add { s with dag := d, pos := s.pos + 1 })
  else pure pool

/-- One turn of the loop of lines 1869-1921. The loop state is the pool and the result so far. -/
def parseStep (dict : Option Dict) (brk : List Int) (st : StatePool × PronunDAG) :
    Res ((StatePool × PronunDAG) ⊕ PronunDAG) :=
  match st with
  | ([], acc) => .ok (.inr acc)
  | (s :: pool, acc) =>
    if s.pos ≥ w.length then .ok (.inl (pool, acc.unionDAG s.dag))
    else if s.pos ≥ s.stop then do
      let s ← refresh ct w brk s
      pure (.inl (StatePool.add pool s, acc))
    else do
      let ex ←
        match dict with
        | some d => findExceptions ct w s d
        | none => pure []
      if ex.length > 0 then pure (.inl (ex.foldl StatePool.add pool, acc))
      else do
        match ← findAbbr ct w s with
        | some s' => pure (.inl (StatePool.add pool s', acc))
        | none => do pure (.inl (← parseChar ct w s pool, acc))

/-- The initial pool, lines 1851-1866. -/
def parseInit (brk : List Int) : Res StatePool := do
  let s ← refresh ct w brk ⟨0, 0, DAG.empty, false⟩
  pure (StatePool.add [] s)

/-- `ParseU16` limited to `n` turns of its loop (for evaluating examples). -/
def parseU16Fuel (n : Nat) (dict : Option Dict) (brk : List Int) : Res PronunDAG := do
  let pool ← parseInit ct w brk
  iterLoop (parseStep ct w dict brk) n (pool, DAG.empty)

/-- `ParseU16`, parser.cxx:1845-1923 -/
noncomputable def parseU16 (dict : Option Dict) (brk : List Int) : Res PronunDAG := do
  let pool ← parseInit ct w brk
  whileLoop (parseStep ct w dict brk) (pool, DAG.empty)

end

/-- parser.h:17-30. The word breaker (`ThBrk*`, libthai) is an arbitrary function; `none` when word
segmentation is off. -/
structure Parser where
  exceptDict : Option Dict
  thBrk : Option (U16Str → List Int)

/-- `Parser (bool isBreakWords)`, parser.cxx:1925-1932 -/
def Parser.new (brk : U16Str → List Int) (isBreakWords : Bool) : Parser :=
  ⟨none, if isBreakWords then some brk else none⟩

/-- `Parser::loadExceptDict`, parser.cxx:1951-1956 -/
def Parser.loadExceptDict (p : Parser) (file : Option DictFile) : Res (Parser × Bool) := do
  let (d, r) ← Dict.open_ Dict.empty file
  pure ({ p with exceptDict := some d }, r)

/-- `FindBreaks`, parser.cxx:1958-1973 -/
def findBreaks (word : U16Str) (brk : Option (U16Str → List Int)) : List Int :=
  match brk with
  | none => []
  | some f => f word

/-- `Parser::parseWord`, parser.cxx:1975-1986 -/
noncomputable def Parser.parseWord (ct : CType) (p : Parser) (word : Str) : Res PronunDAG := do
  let u16word ← fromBytes word
  parseU16 ct u16word p.exceptDict (findBreaks u16word p.thBrk)

end Thpronun
