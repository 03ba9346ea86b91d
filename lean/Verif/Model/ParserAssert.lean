import Verif.Model.Parser
import Verif.Model.SylOut

/-! # The program built with assertions

`configure --enable-debug` (configure.ac:31-37) leaves out `-DNDEBUG`, so that every `assert` of the source is evaluated and
a false one aborts the program. Here the functions that contain an `assert`, and those that call them, are repeated with
their assertions; the others are those of `Model.Parser` and `Model.SylOut`. A failed assertion is an outcome of its own. -/

namespace Thpronun

/-- Outcome of a function of the program built with assertions. -/
inductive Chk (α : Type) where
  | run (r : Res α)   -- as without assertions
  | abort             -- an assertion failed
  deriving DecidableEq, Repr

namespace Chk

/-- Sequencing: anything but a normal result stops the computation. -/
@[inline] def bind {α β} (r : Chk α) (f : α → Chk β) : Chk β :=
  match r with
  | run (.ok a) => f a
  | run (.throw e) => run (.throw e)
  | run .ub => run .ub
  | run .diverge => run .diverge
  | abort => abort

instance : Monad Chk where
  pure a := run (.ok a)
  bind := Chk.bind

instance : MonadLift Res Chk := ⟨run⟩

end Chk

/-- `assert (c)` -/
def assert (c : Prop) [Decidable c] : Chk Unit := if c then pure () else .abort

/-- Concatenation of the results of a loop body, as `concatRes` -/
def concatChk {α β} (f : α → Chk (List β)) : List α → Chk (List β)
  | [] => pure []
  | a :: as => do
    let x ← f a
    let xs ← concatChk f as
    pure (x ++ xs)

/-- One turn of a loop: a failed assertion leaves it. -/
def chkStep {σ α} (step : σ → Chk (σ ⊕ α)) (s : σ) : Res (σ ⊕ Chk α) :=
  match step s with
  | .run (.ok (.inl s')) => .ok (.inl s')
  | .run (.ok (.inr a)) => .ok (.inr (.run (.ok a)))
  | .run (.throw e) => .throw e
  | .run .ub => .ub
  | .run .diverge => .diverge
  | .abort => .ok (.inr .abort)

/-- The outcome of a loop of such turns. -/
def Chk.ofLoop {α} : Res (Chk α) → Chk α
  | .ok c => c
  | .throw e => .run (.throw e)
  | .ub => .run .ub
  | .diverge => .run .diverge

/-- thcons.cxx:36, 64, 92 -/
def assertCons (c : U16) : Chk Unit := assert (UTH.KO_KAI ≤ c ∧ c ≤ UTH.HO_NOKHUK)

/-- thcons.cxx:33-38 -/
def initConsClassD (c : U16) : Chk InitConsClass := do assertCons c; initConsClass c
/-- thcons.cxx:61-66 -/
def initConsSoundD (c : U16) : Chk InitConsSound := do assertCons c; initConsSound c
/-- thcons.cxx:89-94 -/
def endConsClassD (c : U16) : Chk EndConsClass := do assertCons c; endConsClass c

section
variable (ct : CType) (w : U16Str)

/-- parser.cxx:23-35 -/
def thCharToToneD (c : U16) : Chk Tone := do
  assert (ct.isTone c = true)
  thCharToTone c

/-- parser.cxx:37-51 -/
def thCharToAboveBelowVowelD (c : U16) : Chk Vowel := do
  assert (ct.isUpVowel c = true ∨ ct.isBlVowel c = true)
  thCharToAboveBelowVowel c

/-- Two consonants, lines 307-554. -/
def twoConsD (pos stop : Nat) (linked : Bool) (first sec : U16) (snd : InitConsSound)
    (cls : InitConsClass) : Chk (List PartialSyl) := do
  let snd2 ← initConsSoundD sec
  let cls2 ← initConsClassD sec
  let a ← clusters ct w pos stop linked first sec snd cls
  let b ←
    if UTH.HO_HIP = first ∧ InitConsClass.LOWS = cls2 then do
      if ← notRoRo w stop (pos + 2) sec then
        pure [{ pos := pos + 2, pre := none, iConsSound := snd2, iConsClass := .HIGH }]
      else pure []
    else pure []
  let c ← do
    if ← notRoRo w stop (pos + 2) sec then
      pure [{ pos := pos + 2, pre := some (preSylOf snd cls VW.A true true), iConsSound := snd2,
              iConsClass := if InitConsClass.LOWS = cls2 then cls else cls2 }]
    else pure []
  let d ←
    if UTH.BO_BAIMAI = first ∧ UTH.DO_DEK = sec ∧ pos + 2 < stop then do
      let next ← strAt w (pos + 2)
      if UTH.SARA_I = next ∨ UTH.SARA_II = next then
        pure [{ pos := pos + 1, pre := none, iConsSound := snd, iConsClass := cls,
                iCons2 := SC.NONE, vowel := VW.AUU, eConsClass := .NONE, tone := .SAMAN,
                isComplete := true }]
      else pure []
    else pure []
  pure (a ++ b ++ c ++ d)

/-- Consonant + RU, lines 555-776. -/
def consRuD (pos stop : Nat) (first : U16) (snd : InitConsSound) (cls : InitConsClass) :
    Chk (List PartialSyl) := do
  let isRuu ←
    if pos + 2 ≥ stop then pure false else do
      let c ← strAt w (pos + 2)
      pure (decide (UTH.LAKKHANGYAO = c ∨ UTH.SARA_AA = c))
  if isRuu then pure [] else
  let clus (c2 : SecInitCons) (v : Vowel) : PartialSyl :=
    { pos := pos + 2, pre := none, iConsSound := snd, iConsClass := cls, iCons2 := c2, vowel := v }
  let sep (cls2 : InitConsClass) (v : Vowel) : PartialSyl :=
    { pos := pos + 2, pre := some (preSylOf snd cls VW.A true true), iConsSound := .RA,
      iConsClass := cls2, iCons2 := SC.NONE, vowel := v }
  let sepDone : PartialSyl :=
    { sep .LOWS VW.UE with eConsClass := .NONE, tone := .SAMAN, isComplete := true }
  if first ∈ [UTH.KO_KAI, UTH.TO_TAO, UTH.THO_THAHAN, UTH.PO_PLA] then pure [clus SC.RA VW.I]
  else if first ∈ [UTH.SO_SUA, UTH.SO_SALA] then pure [clus SC.NONE VW.I, sep cls VW.I]
  else if first ∈ [UTH.WO_WAEN] then pure [clus SC.RA VW.UE]
  else if first ∈ [UTH.NO_NU] then pure [sep .LOWS VW.UE]
  else if first ∈ [UTH.KHO_KHWAI, UTH.PHO_PHAN] then do
    let hasEnd ←
      if pos + 2 < stop then do
        let c ← strAt w (pos + 2)
        if ct.isCons c then pure (decide (EndConsClass.NONE ≠ (← endConsClassD c))) else pure false
      else pure false
    if hasEnd then pure [clus SC.RA VW.UE] else pure [sepDone]
  else
    pure ((if UTH.HO_HIP ≠ first then [clus SC.RA VW.I] else [])
      ++ [sep .LOWS VW.I]
      ++ (if UTH.HO_HIP ≠ first then [clus SC.RA VW.UE] else [])
      ++ [sep .LOWS VW.UE, sepDone])

/-- `MatchInitCons`, parser.cxx:288-801 -/
def matchInitConsD (pos stop : Nat) (linked : Bool) : Chk (List PartialSyl) := do
  assert (stop ≤ w.length)
  assert (pos < stop)
  let first ← strAt w pos
  if ct.isCons first = false then pure [] else
  let snd ← initConsSoundD first
  let cls ← initConsClassD first
  let a ←
    if pos + 1 < stop then do
      let sec ← strAt w (pos + 1)
      if ct.isCons sec then twoConsD ct w pos stop linked first sec snd cls
      else if UTH.RU = sec then consRuD ct w pos stop first snd cls
      else pure []
    else pure []
  let c ←
    if pos + 1 < stop then do
      if isSylStart ct (← strAt w (pos + 1)) then
        pure [{ pos := pos + 1, pre := none, iConsSound := snd, iConsClass := cls,
                iCons2 := SC.NONE, vowel := VW.A, eConsClass := .NONE, tone := .SAMAN,
                isComplete := true }]
      else pure []
    else pure []
  pure (a ++ [{ pos := pos + 1, pre := none, iConsSound := snd, iConsClass := cls }] ++ c)

/-! ## Karan, parser.cxx:803-870 -/

/-- parser.cxx:803-819 -/
def matchKaranSimpleD (pos stop : Nat) : Chk Nat := do
  assert (stop ≤ w.length)
  assert (pos ≤ stop)
  if pos + 1 < stop then do
    if UTH.THANTHAKHAT = (← strAt w (pos + 1)) then
      if ct.isCons (← strAt w pos) then pure (pos + 2) else pure pos
    else pure pos
  else pure pos

/-- parser.cxx:821-841 -/
def matchKaranIUD (pos stop : Nat) : Chk Nat := do
  assert (stop ≤ w.length)
  assert (pos ≤ stop)
  if pos + 2 < stop then do
    if UTH.THANTHAKHAT = (← strAt w (pos + 2)) then
      if ct.isCons (← strAt w pos) then
        let c ← strAt w (pos + 1)
        if UTH.SARA_I = c ∨ UTH.SARA_U = c then pure (pos + 3) else pure pos
      else pure pos
    else pure pos
  else pure pos

/-- parser.cxx:843-870 -/
def matchKaranComplexD (pos stop : Nat) : Chk Nat := do
  assert (stop ≤ w.length)
  assert (pos ≤ stop)
  let p ← matchKaranSimpleD ct w pos stop
  if p ≠ pos then pure p
  else if pos + 2 < stop then do
    if UTH.THANTHAKHAT = (← strAt w (pos + 2)) then
      if ct.isCons (← strAt w pos) then
        let c ← strAt w (pos + 1)
        if ct.isCons c = true ∨ UTH.SARA_I = c ∨ UTH.SARA_U = c then pure (pos + 3) else pure pos
      else pure pos
    else pure pos
  else pure pos

/-! ## Ending consonants, parser.cxx:872-1006 -/

/-- The test of lines 892-893 and 947-949: a consonant with an ending class, not excluded. -/
def endConsOfD (c : U16) (excl : List U16) : Chk (Option EndConsClass) :=
  if ct.isCons c then do
    let e ← endConsClassD c
    if EndConsClass.NONE ≠ e ∧ c ∉ excl then pure (some e) else pure none
  else pure none

/-- `EatEndConsSimple`, parser.cxx:881-906 -/
def eatEndConsSimpleD (stop : Nat) (p : PartialSyl) (excl : List U16) : Chk (List Emit) := do
  assert (stop ≤ w.length)
  assert (p.pos ≤ stop)
  let c ← strAt w p.pos
  match ← endConsOfD ct c excl with
  | none => pure []
  | some e =>
    let k ← matchKaranComplexD ct w (p.pos + 1) stop
    pure [⟨k, false, { p with eConsClass := e, pos := k }⟩]

/-- `EatEndConsComplex`, parser.cxx:908-1006 -/
def eatEndConsComplexD (stop : Nat) (p : PartialSyl) (excl : List U16) : Chk (List Emit) := do
  assert (stop ≤ w.length)
  assert (p.pos ≤ stop)
  let c ← strAt w p.pos
  match ← endConsOfD ct c excl with
  | none => pure []
  | some e =>
    let p := { p with eConsClass := e }
    let k ← matchKaranComplexD ct w (p.pos + 1) stop
    let a : List Emit := [⟨k, false, p⟩]
    if k > p.pos + 1 then pure a
    else do
      let b ← linkPart ct w stop p c
      pure (a ++ b)

/-! ## Syllables starting with a consonant, parser.cxx:1008-1269 -/

/-- Read an optional tone mark `c` at `p.pos`. -/
def readToneD (p : PartialSyl) (c : U16) : Chk PartialSyl :=
  if ct.isTone c then do
    let t ← thCharToToneD ct c
    pure { p with tone := t, pos := p.pos + 1 }
  else pure p

/-- `p.pos = MatchKaranSimple (…); AddState (pool, p.pos, state, p)` -/
def karanEmitD (stop : Nat) (p : PartialSyl) : Chk (PartialSyl × List Emit) := do
  let k ← matchKaranSimpleD ct w p.pos stop
  let p := { p with pos := k }
  pure (p, [⟨k, false, p⟩])

/-- MAI HAN AKAT branch, lines 1029-1066 (`p.pos` after the vowel). -/
def hanAkatD (stop : Nat) (p : PartialSyl) : Chk (List Emit) :=
  if p.pos ≥ stop then pure [] else do
  let p ← readToneD ct p (← strAt w p.pos)
  if p.pos ≥ stop then pure [] else
  let c ← strAt w p.pos
  if UTH.WO_WAEN = c then
    let q := p.pos + 1
    let p ←
      if ← isCharAt w stop q UTH.SARA_A then
        pure { p with pos := q + 1, vowel := VW.UA, eConsClass := .NONE }
      else pure { p with pos := q, vowel := VW.UAA, eConsClass := .NONE }
    let (_, es) ← karanEmitD ct w stop p
    pure es
  else
    let p := { p with vowel := VW.A }
    if Tone.SAMAN = p.tone then eatEndConsComplexD ct w stop p []
    else eatEndConsSimpleD ct w stop p []

/-- End consonant after an above/below vowel, lines 1101-1131. -/
def upBlEndD (stop : Nat) (p : PartialSyl) : Chk (List Emit) :=
  if p.pos < stop then do
    let c ← strAt w p.pos
    if ct.isLdVowel c then pure []
    else if VW.UEE = p.vowel then
      if UTH.O_ANG = c then do
        let (_, es) ← karanEmitD ct w stop { p with eConsClass := .NONE, pos := p.pos + 1 }
        pure es
      else eatEndConsSimpleD ct w stop p []
    else
      let excl := if VW.I = p.vowel ∨ VW.II = p.vowel then [UTH.YO_YAK] else []
      if VW.UE = p.vowel ∨ Tone.SAMAN ≠ p.tone then eatEndConsSimpleD ct w stop p excl
      else eatEndConsComplexD ct w stop p excl
  else pure []

/-- Above/below vowel branch, lines 1067-1131 (`c` the vowel, `p.pos` at it). -/
def upBlVowelD (stop : Nat) (p : PartialSyl) (c : U16) : Chk (List Emit) := do
  let v ← thCharToAboveBelowVowelD ct c
  let p := { p with vowel := v, pos := p.pos + 1 }
  let p ← if p.pos < stop then do readToneD ct p (← strAt w p.pos) else pure p
  if ← upBlOpen ct w stop p then
    let p := { p with eConsClass := .NONE }
    let k ← matchKaranSimpleD ct w p.pos stop
    if k = p.pos then
      let k2 ← matchKaranIUD ct w p.pos stop
      if k2 ≠ p.pos then pure [⟨k2, false, p⟩]
      else do
        let es ← upBlEndD ct w stop p
        pure ([⟨p.pos, false, p⟩] ++ es)
    else
      let p := { p with pos := k }
      let es ← upBlEndD ct w stop p
      pure ([⟨k, false, p⟩] ++ es)
  else upBlEndD ct w stop p

/-- MAITAIKHU branch, lines 1132-1146 (`p.pos` at it). -/
def maitaikhuOD (stop : Nat) (p : PartialSyl) : Chk (List Emit) := do
  if ← isCharAt w stop (p.pos + 1) UTH.O_ANG then
    let p := { p with pos := p.pos + 2 }
    if p.pos ≥ stop then pure [] else
    let p := { p with vowel := VW.AU }
    let k ← matchKaranSimpleD ct w p.pos stop
    if k < stop then eatEndConsSimpleD ct w stop { p with pos := k } [] else pure []
  else pure []

/-- RO RUA case, lines 1212-1240 (`p.pos` after RO RUA). -/
def roRuaD (stop : Nat) (p : PartialSyl) : Chk (List Emit) := do
  let (p, a) ←
    if InitConsSound.RA ≠ p.iConsSound then
      karanEmitD ct w stop { p with vowel := VW.AUU, eConsClass := .KON }
    else pure (p, [])
  if ← isCharAt w stop p.pos UTH.RO_RUA then
    let p := { p with pos := p.pos + 1, vowel := VW.A, eConsClass := .KON }
    let k ← matchKaranSimpleD ct w p.pos stop
    let b : List Emit := [⟨k, false, p⟩]
    if k = p.pos ∧ p.pos < stop then do
      let es ← eatEndConsComplexD ct w stop p []
      pure (a ++ b ++ es)
    else pure (a ++ b)
  else pure a

/-- The `default` case, lines 1242-1265 (`c` at `p.pos`). -/
def consConsD (stop : Nat) (linked : Bool) (p : PartialSyl) (c : U16) : Chk (List Emit) :=
  if ct.isCons c then
    if VW.INVALID = p.vowel then do
      if EndConsClass.NONE ≠ (← endConsClassD c) ∧ SC.WA ≠ p.iCons2 ∧ linked = false then
        eatEndConsSimpleD ct w stop { p with vowel := VW.O } [UTH.YO_YAK, UTH.WO_WAEN]
      else pure []
    else do
      let p := { p with eConsClass := .NONE }
      let es ← eatEndConsComplexD ct w stop p [UTH.WO_WAEN]
      pure ([⟨p.pos, false, p⟩] ++ es)
  else pure []

/-- The last branch, lines 1147-1267 (`p.pos` at `c`). -/
def plainConsD (stop : Nat) (linked : Bool) (p : PartialSyl) (c : U16) : Chk (List Emit) := do
  let p ← readToneD ct p c
  if p.pos ≥ stop then pure [] else
  let c ← strAt w p.pos
  let q := { p with pos := p.pos + 1 }
  if c = UTH.SARA_A then do
    let (_, es) ← karanEmitD ct w stop { q with vowel := VW.A, eConsClass := .NONE }
    pure es
  else if c = UTH.SARA_AA then do
    let (p, a) ← karanEmitD ct w stop { q with vowel := VW.AA, eConsClass := .NONE }
    if p.pos < stop then do
      let es ← eatEndConsComplexD ct w stop p []
      pure (a ++ es)
    else pure a
  else if c = UTH.SARA_AM then do
    let (_, es) ← karanEmitD ct w stop { q with vowel := VW.A, eConsClass := .KOM }
    pure es
  else if c = UTH.WO_WAEN then
    if q.pos < stop then eatEndConsSimpleD ct w stop { q with vowel := VW.UAA } [] else pure []
  else if c = UTH.O_ANG then do
    let (p, a) ← karanEmitD ct w stop { q with vowel := VW.AUU, eConsClass := .NONE }
    if p.pos < stop then do
      let es ← eatEndConsSimpleD ct w stop p []
      pure (a ++ es)
    else pure a
  else if c = UTH.RO_RUA then roRuaD ct w stop q
  else consConsD ct w stop linked p c

/-- Body of the loop of `ParseThCons`, lines 1019-1268. -/
def thConsOneD (stop : Nat) (linked : Bool) (p : PartialSyl) : Chk (List Emit) :=
  if p.pos ≥ stop then pure []
  else if p.isComplete then pure [⟨p.pos, false, p⟩]
  else do
    let c ← strAt w p.pos
    let p := { p with tone := .SAMAN }
    if UTH.MAI_HAN_AKAT = c then hanAkatD ct w stop { p with pos := p.pos + 1 }
    else if ct.isUpVowel c || ct.isBlVowel c then upBlVowelD ct w stop p c
    else if UTH.MAITAIKHU = c then maitaikhuOD ct w stop p
    else plainConsD ct w stop linked p c

/-- `ParseThCons`, parser.cxx:1008-1269 -/
def parseThConsD (pos stop : Nat) (linked : Bool) : Chk (List Emit) := do
  assert (stop ≤ w.length)
  assert (pos < stop)
  let ps ← matchInitConsD ct w pos stop linked
  concatChk (thConsOneD ct w stop linked) ps

/-! ## SARA E, parser.cxx:1271-1488 -/

/-- lines 1304-1322 (`p.pos` after SARA I) -/
def saraEID (stop : Nat) (p : PartialSyl) : Chk (List Emit) :=
  let p := { p with vowel := VW.OEE }
  if p.pos ≥ stop then pure [] else do
  let p ← readToneD ct p (← strAt w p.pos)
  let k ← matchKaranSimpleD ct w p.pos stop
  if k < stop then eatEndConsSimpleD ct w stop { p with pos := k } [] else pure []

/-- lines 1323-1352 and 1353-1382 (`p.pos` after SARA II / UEE): the shared shape; `mid` is YO YAK /
O ANG, `vs`, `vl` the short and long vowels. -/
def saraEMidD (stop : Nat) (mid : U16) (vs vl : Vowel) (complex : Bool) (p : PartialSyl) :
    Chk (List Emit) :=
  if p.pos ≥ stop then pure [] else do
  let p ← readToneD ct p (← strAt w p.pos)
  if ← isCharAt w stop p.pos mid then
    let q := p.pos + 1
    let isShort ← isCharAt w stop q UTH.SARA_A
    let p := if isShort then { p with pos := q + 1, vowel := vs, eConsClass := .NONE }
      else { p with pos := q, vowel := vl, eConsClass := .NONE }
    let (p, a) ← karanEmitD ct w stop p
    if vl = p.vowel ∧ p.pos < stop then do
      let es ← if complex then eatEndConsComplexD ct w stop p [] else eatEndConsSimpleD ct w stop p []
      pure (a ++ es)
    else pure a
  else pure []

/-- The `default` of the inner switch, lines 1471-1484 (`p.pos` at the next character). -/
def saraEPlainD (stop : Nat) (p : PartialSyl) : Chk (List Emit) :=
  if notPreA p then do
    let (p, a) ← karanEmitD ct w stop { p with vowel := VW.EE, eConsClass := .NONE }
    if p.pos < stop then do
      let es ← eatEndConsComplexD ct w stop p []
      pure (a ++ es)
    else pure a
  else pure []

/-- The inner switch, lines 1405-1485 (`c` at `p.pos`). -/
def saraERestD (stop : Nat) (p : PartialSyl) (c : U16) : Chk (List Emit) :=
  if c = UTH.O_ANG then do
    let a ←
      if notPreA p then do
        let k ← matchKaranSimpleD ct w p.pos stop
        pure [(⟨k, false, { p with vowel := VW.EE, eConsClass := .NONE }⟩ : Emit)]
      else pure []
    let q := p.pos + 1
    let isShort ← isCharAt w stop q UTH.SARA_A
    let p := if isShort then { p with pos := q + 1, vowel := VW.OE, eConsClass := .NONE }
      else { p with pos := q, vowel := VW.OEE, eConsClass := .NONE }
    let (_, b) ← karanEmitD ct w stop p
    pure (a ++ b)
  else if c = UTH.SARA_A then
    if notPreA p then do
      let (_, a) ← karanEmitD ct w stop
        { p with pos := p.pos + 1, vowel := VW.E, eConsClass := .NONE }
      pure a
    else pure []
  else if c = UTH.SARA_AA then do
    let q := p.pos + 1
    let isShort ← isCharAt w stop q UTH.SARA_A
    let p := if isShort then { p with pos := q + 1, vowel := VW.AU, eConsClass := .NONE }
      else { p with pos := q, vowel := VW.A, eConsClass := .KOEW }
    let (_, a) ← karanEmitD ct w stop p
    pure a
  else if c = UTH.YO_YAK then do
    if ← endOrSylStart ct w stop (p.pos + 1) then
      let (_, a) ← karanEmitD ct w stop
        { p with pos := p.pos + 1, vowel := VW.OEE, eConsClass := .KOEY }
      pure a
    else saraEPlainD ct w stop p
  else saraEPlainD ct w stop p

/-- Body of the loop of `ParseSaraE`, lines 1287-1487. -/
def saraEOneD (stop : Nat) (p : PartialSyl) : Chk (List Emit) :=
  if p.isComplete then pure [] else
  let p := { p with tone := .SAMAN }
  if p.pos ≥ stop then
    if notPreA p then pure [⟨p.pos, false, { p with vowel := VW.EE, eConsClass := .NONE }⟩]
    else pure []
  else do
    let c ← strAt w p.pos
    let q := { p with pos := p.pos + 1 }
    if c = UTH.SARA_I then saraEID ct w stop q
    else if c = UTH.SARA_II then saraEMidD ct w stop UTH.YO_YAK VW.IA VW.IAA true q
    else if c = UTH.SARA_UEE then saraEMidD ct w stop UTH.O_ANG VW.UEA VW.UEAA false q
    else if c = UTH.MAITAIKHU then
      if q.pos < stop then eatEndConsSimpleD ct w stop { q with vowel := VW.E } [] else pure []
    else do
      let p' ← readToneD ct p c
      if ct.isTone c = true ∧ p'.pos ≥ stop then
        pure [⟨p'.pos, false, { p' with vowel := VW.EE, eConsClass := .NONE }⟩]
      else saraERestD ct w stop p' (← strAt w p'.pos)

/-- `ParseSaraE`, parser.cxx:1271-1488 -/
def parseSaraED (pos stop : Nat) (linked : Bool) : Chk (List Emit) := do
  assert (stop ≤ w.length)
  assert (pos < stop)
  assert (UTH.SARA_E = (← strAt w pos))
  if pos + 1 ≥ stop then pure [] else do
  let ps ← matchInitConsD ct w (pos + 1) stop linked
  concatChk (saraEOneD ct w stop) ps

/-! ## Other leading vowels, parser.cxx:1490-1610 -/

/-- SARA AE, lines 1526-1563 -/
def saraAeD (stop : Nat) (p : PartialSyl) : Chk (List Emit) := do
  let (p, needsEnd) ←
    if p.pos < stop then do
      let c ← strAt w p.pos
      if c = UTH.SARA_A then pure ({ p with pos := p.pos + 1, vowel := VW.AE }, false)
      else if c = UTH.MAITAIKHU then pure ({ p with pos := p.pos + 1, vowel := VW.AE }, true)
      else pure ({ p with vowel := VW.AEE }, false)
    else pure ({ p with vowel := VW.AEE }, false)
  let (p, a) ←
    if needsEnd then pure (p, []) else karanEmitD ct w stop { p with eConsClass := .NONE }
  if p.pos < stop ∧ (VW.AEE = p.vowel ∨ needsEnd = true) then do
    let es ← eatEndConsSimpleD ct w stop p []
    pure (a ++ es)
  else pure a

/-- SARA O, lines 1564-1588 -/
def saraOD (stop : Nat) (p : PartialSyl) : Chk (List Emit) := do
  let isShort ← isCharAt w stop p.pos UTH.SARA_A
  let p := if isShort then { p with pos := p.pos + 1, vowel := VW.O, eConsClass := .NONE }
    else { p with vowel := VW.OO, eConsClass := .NONE }
  let k ← matchKaranSimpleD ct w p.pos stop
  let k2 ← if k = p.pos then matchKaranIUD ct w p.pos stop else pure k
  if k = p.pos ∧ k2 ≠ p.pos then pure [⟨k2, false, p⟩]
  else
    let p := { p with pos := k2 }
    let a : List Emit := [⟨p.pos, false, p⟩]
    if VW.OO = p.vowel ∧ p.pos < stop then do
      let es ← eatEndConsComplexD ct w stop p []
      pure (a ++ es)
    else pure a

/-- SARA AI MAIMALAI, lines 1589-1601 -/
def saraAiMalaiD (stop : Nat) (p : PartialSyl) : Chk (List Emit) := do
  let p := { p with vowel := VW.A, eConsClass := .KOEY }
  let a ←
    if ← isCharAt w stop p.pos UTH.YO_YAK then do
      let ok ← if p.pos + 1 = stop then pure true else do pure (isSylStart ct (← strAt w (p.pos + 1)))
      if ok then pure [(⟨p.pos + 1, false, p⟩ : Emit)] else pure []
    else pure []
  let (_, b) ← karanEmitD ct w stop p
  pure (a ++ b)

/-- Body of the loop of `ParseOtherLV`, lines 1507-1609. -/
def otherLVOneD (stop : Nat) (ldv : U16) (p : PartialSyl) : Chk (List Emit) :=
  if p.isComplete then pure [] else do
  let p := { p with tone := .SAMAN }
  let p ← if p.pos < stop then do readToneD ct p (← strAt w p.pos) else pure p
  if ldv = UTH.SARA_AE then saraAeD ct w stop p
  else if ldv = UTH.SARA_O then saraOD ct w stop p
  else if ldv = UTH.SARA_AI_MAIMALAI then saraAiMalaiD ct w stop p
  else if ldv = UTH.SARA_AI_MAIMUAN then do
    let (_, a) ← karanEmitD ct w stop { p with vowel := VW.A, eConsClass := .KOEY }
    pure a
  else pure []

/-- `ParseOtherLV`, parser.cxx:1490-1610 -/
def parseOtherLVD (pos stop : Nat) (linked : Bool) : Chk (List Emit) := do
  assert (stop ≤ w.length)
  assert (pos < stop)
  assert (ct.isLdVowel (← strAt w pos) = true)
  assert (UTH.SARA_E ≠ (← strAt w pos))
  let ldv ← strAt w pos
  let ps ← matchInitConsD ct w (pos + 1) stop linked
  concatChk (otherLVOneD ct w stop ldv) ps

/-! ## RU and LU, parser.cxx:1612-1674 -/

/-- `ParseRuLu`, parser.cxx:1612-1674 -/
def parseRuLuD (pos stop : Nat) : Chk (List Emit) := do
  assert (stop ≤ w.length)
  assert (pos < stop)
  let c ← strAt w pos
  assert (UTH.RU = c ∨ UTH.LU = c)
  let first ← strAt w pos
  let p : PartialSyl :=
    { pos := pos + 1, pre := none, iConsSound := if UTH.LU = first then .LA else .RA,
      iConsClass := .LOWS, iCons2 := SC.NONE, tone := .SAMAN }
  if pos + 1 ≥ stop then pure [⟨pos + 1, false, { p with vowel := VW.UE, eConsClass := .NONE }⟩]
  else do
    let sec ← strAt w (pos + 1)
    if UTH.LAKKHANGYAO = sec ∨ UTH.SARA_AA = sec then
      pure [⟨pos + 2, false, { p with vowel := VW.UEE, eConsClass := .NONE }⟩]
    else if ct.isCons sec then do
      let e ← endConsClassD sec
      let alone ←
        if EndConsClass.NONE = e then pure true
        else if pos + 2 < stop then do pure (!isSylStart ct (← strAt w (pos + 2)))
        else pure false
      if alone then pure [⟨pos + 1, false, { p with vowel := VW.UE, eConsClass := .NONE }⟩]
      else if sec ∈ [UTH.NO_NEN, UTH.THO_THAHAN, UTH.SO_RUSI] then
        eatEndConsComplexD ct w stop { p with vowel := VW.I } []
      else eatEndConsComplexD ct w stop { p with vowel := VW.UE } []
    else pure []

/-! ## Exceptions and abbreviations -/

/-- `FindExceptions`, parser.cxx:1695-1725 -/
def findExceptionsD (s : PState) (dict : Dict) : Chk (List PState) := do
  assert (s.stop ≤ w.length)
  assert (s.pos < s.stop)
  findExceptions ct w s dict

/-- The loop of lines 1762-1788. -/
def abbrDagD : Nat → Nat → Nat → PronunDAG → Chk PronunDAG
  | 0, _, _, _ => Chk.run .diverge
  | fuel + 1, pos, abbrEnd, d =>
    if pos < abbrEnd then do
      let c ← strAt w pos
      if ct.isCons c then do
        let sylEnd ←
          if pos + 1 < abbrEnd then do
            if ct.isCons (← strAt w (pos + 1)) then pure (pos + 1) else pure (pos + 2)
          else pure (pos + 1)
        let snd ← initConsSoundD c
        let cls ← initConsClassD c
        let syl := Syl.mk5 snd SC.NONE VW.AUU .NONE
          (if InitConsClass.HIGH = cls then .CHATTAWA else .SAMAN) (sylEnd : Int)
        abbrDagD fuel sylEnd abbrEnd (d.addEdge pos sylEnd syl).1
      else
        abbrDagD fuel (pos + 1) abbrEnd
          (d.addEdge pos ((pos : Int) + 1) (Syl.lit ((pos : Int) + 1) ((w.drop pos).take 1))).1
    else pure d

/-- `FindAbbr`, parser.cxx:1727-1792 -/
def findAbbrD (s : PState) : Chk (Option PState) := do
  assert (s.stop ≤ w.length)
  assert (s.pos < s.stop)
  if ← abbrAllowed w s.pos then
    match ← abbrScan ct (w.drop s.pos) s.pos s.stop 0 with
    | none => pure none
    | some (abbrEnd, nCons, dot) =>
      if nCons > 1 ∧ dot = false then pure none
      else do
        let d ← abbrDagD ct w (w.length + 2) s.pos abbrEnd s.dag
        pure (some ⟨abbrEnd, s.stop, d, false⟩)
  else pure none

/-! ## Tokens and main loop -/

/-- `NextWordStop`, parser.cxx:1825-1843 -/
def nextWordStopD (start : Nat) (brk : List Int) : Chk Nat := do
  assert (isThaiTokenChar ct (← strAt w start) = true)
  nextWordStop ct w start brk

/-- Lines 1852-1865 and 1873-1886 -/
def refreshD (brk : List Int) (s : PState) : Chk PState := do
  let beginPos := skipNonThai ct w s.pos
  let s :=
    if beginPos > s.pos then
      { s with
        dag := (s.dag.addEdge s.pos beginPos
          (Syl.lit beginPos ((w.drop s.pos).take (beginPos - s.pos)))).1
        pos := beginPos }
    else s
  if s.pos < w.length then do
    let stop ← nextWordStopD ct w s.pos brk
    pure { s with stop := stop }
  else pure { s with stop := s.pos }

/-- Lines 1897-1919 -/
def parseCharD (s : PState) (pool : StatePool) : Chk StatePool := do
  let c ← strAt w s.pos
  if ct.isCons c then do pure (addEmits pool s (← parseThConsD ct w s.pos s.stop s.linked))
  else if UTH.SARA_E = c then do pure (addEmits pool s (← parseSaraED ct w s.pos s.stop s.linked))
  else if ct.isLdVowel c then do pure (addEmits pool s (← parseOtherLVD ct w s.pos s.stop s.linked))
  else if UTH.RU = c ∨ UTH.LU = c then do pure (addEmits pool s (← parseRuLuD ct w s.pos s.stop))
  else if c = ch!"." then do
    let d ← stretchDot s.pos (s.dag.inDegree s.pos + 1) s.dag
    pure (pool.add { s with dag := d, pos := s.pos + 1 })
  else pure pool

/-- One turn of the loop of lines 1869-1921. -/
def parseStepD (dict : Option Dict) (brk : List Int) (st : StatePool × PronunDAG) :
    Chk ((StatePool × PronunDAG) ⊕ PronunDAG) :=
  match st with
  | ([], acc) => pure (.inr acc)
  | (s :: pool, acc) =>
    if s.pos ≥ w.length then pure (.inl (pool, acc.unionDAG s.dag))
    else if s.pos ≥ s.stop then do
      let s ← refreshD ct w brk s
      pure (.inl (StatePool.add pool s, acc))
    else do
      let ex ←
        match dict with
        | some d => findExceptionsD ct w s d
        | none => pure []
      if ex.length > 0 then pure (.inl (ex.foldl StatePool.add pool, acc))
      else do
        match ← findAbbrD ct w s with
        | some s' => pure (.inl (StatePool.add pool s', acc))
        | none => do pure (.inl (← parseCharD ct w s pool, acc))

/-- The initial pool, lines 1851-1866. -/
def parseInitD (brk : List Int) : Chk StatePool := do
  let s ← refreshD ct w brk ⟨0, 0, DAG.empty, false⟩
  pure (StatePool.add [] s)

/-- `ParseU16` limited to `n` turns of its loop (for evaluating examples). -/
def parseU16DFuel (n : Nat) (dict : Option Dict) (brk : List Int) : Chk PronunDAG := do
  let pool ← parseInitD ct w brk
  Chk.ofLoop (iterLoop (chkStep (parseStepD ct w dict brk)) n (pool, DAG.empty))

/-- `ParseU16`, parser.cxx:1845-1923 -/
noncomputable def parseU16D (dict : Option Dict) (brk : List Int) : Chk PronunDAG := do
  let pool ← parseInitD ct w brk
  Chk.ofLoop (whileLoop (chkStep (parseStepD ct w dict brk)) (pool, DAG.empty))

end

/-- `Parser::parseWord`, parser.cxx:1975-1986 -/
noncomputable def Parser.parseWordD (ct : CType) (p : Parser) (word : Str) : Chk PronunDAG := do
  let u16word ← fromBytes word
  parseU16D ct u16word p.exceptDict (findBreaks u16word p.thBrk)

/-! ## Thai output, sylout-thai.cxx -/

/-- sylout-thai.cxx:311-335 -/
def thaiSylBelowAboveD (i1 : InitConsSound) (i2 : SecInitCons) (isShort : Bool) (vowel : Vowel)
    (eCons : EndConsClass) (tone : Tone) : Chk Str := do
  assert (VW.I = vowel ∨ VW.II = vowel ∨ VW.UE = vowel ∨ VW.U = vowel ∨ VW.UU = vowel)
  thaiSylBelowAbove i1 i2 isShort vowel eCons tone

/-- sylout-thai.cxx:352-373 -/
def thaiSylLeadShortD (i1 : InitConsSound) (i2 : SecInitCons) (vowel : Vowel)
    (eCons : EndConsClass) (tone : Tone) : Chk Str := do
  assert (VW.E = vowel ∨ VW.AE = vowel)
  thaiSylLeadShort i1 i2 vowel eCons tone

/-- sylout-thai.cxx:376-394 -/
def thaiSylLeadLongD (i1 : InitConsSound) (i2 : SecInitCons) (vowel : Vowel)
    (eCons : EndConsClass) (tone : Tone) : Chk Str := do
  assert (VW.EE = vowel ∨ VW.AEE = vowel ∨ VW.OO = vowel)
  thaiSylLeadLong i1 i2 vowel eCons tone

/-- sylout-thai.cxx:548-633: the cases of the `switch` whose functions have assertions; the others are those of `thaiSyl`. -/
def thaiSylD (s : Syl) : Chk Str :=
  let v := s.vowel
  if s.isLiteral then Chk.run (outputLiteral s.literal)
  else if v = VW.I ∨ v = VW.UE ∨ v = VW.U then
    thaiSylBelowAboveD s.iCons1 s.iCons2 true v s.eCons s.tone
  else if v = VW.II ∨ v = VW.UU then
    thaiSylBelowAboveD s.iCons1 s.iCons2 false v s.eCons s.tone
  else if v = VW.E ∨ v = VW.AE then thaiSylLeadShortD s.iCons1 s.iCons2 v s.eCons s.tone
  else if v = VW.EE ∨ v = VW.AEE ∨ v = VW.OO then
    thaiSylLeadLongD s.iCons1 s.iCons2 v s.eCons s.tone
  else Chk.run (thaiSyl s)

end Thpronun
