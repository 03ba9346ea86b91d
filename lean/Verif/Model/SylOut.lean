import Verif.Model.Syl
import Verif.Model.Utf

/-! # Notations of one syllable: `output/isyl-output.cxx`, `output/sylout-*.cxx` -/

namespace Thpronun

/-- isyl-output.cxx:12-20 -/
def outputLiteral (lit : U16Str) : Res Str := do
  let u8lit ← toBytes lit
  pure (b!"(" ++ u8lit ++ b!")")

/-! ## Raw, sylout-raw.cxx -/

/-- sylout-raw.cxx:16-39 -/
def rawInitConsTbl : List (InitConsSound × Str) := [
  (.KA, b!"k"), (.KHA, b!"c"), (.NGA, b!"g"), (.JA, b!"j"), (.CHA, b!"J"), (.YA, b!"y"),
  (.DA, b!"d"), (.TA, b!"t"), (.THA, b!"T"), (.NA, b!"n"), (.BA, b!"b"), (.PA, b!"p"),
  (.PHA, b!"P"), (.FA, b!"f"), (.MA, b!"m"), (.RA, b!"r"), (.LA, b!"l"), (.WA, b!"w"),
  (.SA, b!"s"), (.HA, b!"h"), (.A, b!"?")]
/-- sylout-raw.cxx:43-49 -/
def rawSecInitConsTbl : List (SecInitCons × Str) := [
  (SC.NONE, b!"_"), (SC.RA, b!"r"), (SC.LA, b!"l"), (SC.WA, b!"w")]
/-- sylout-raw.cxx:53-79 -/
def rawVowelTbl : List (Vowel × Str) := [
  (VW.A, b!"a"), (VW.AA, b!"A"), (VW.I, b!"i"), (VW.II, b!"I"), (VW.UE, b!"v"), (VW.UEE, b!"V"),
  (VW.U, b!"u"), (VW.UU, b!"U"), (VW.E, b!"e"), (VW.EE, b!"E"), (VW.AE, b!"x"), (VW.AEE, b!"X"),
  (VW.IA, b!"y"), (VW.IAA, b!"Y"), (VW.UEA, b!"z"), (VW.UEAA, b!"Z"), (VW.UA, b!"t"),
  (VW.UAA, b!"T"), (VW.O, b!"o"), (VW.OO, b!"O"), (VW.AU, b!"c"), (VW.AUU, b!"C"),
  (VW.OE, b!"w"), (VW.OEE, b!"W")]
/-- sylout-raw.cxx:83-94 -/
def rawEndConsTbl : List (EndConsClass × Str) := [
  (.NONE, b!"_"), (.KOK, b!"k"), (.KOT, b!"t"), (.KOP, b!"p"), (.KONG, b!"g"), (.KON, b!"n"),
  (.KOM, b!"m"), (.KOEY, b!"y"), (.KOEW, b!"w")]
/-- sylout-raw.cxx:98-105 -/
def rawToneTbl : List (Tone × Str) := [
  (.SAMAN, b!"0"), (.EK, b!"1"), (.THO, b!"2"), (.TRI, b!"3"), (.CHATTAWA, b!"4")]

/-- sylout-raw.cxx:108-123 -/
def rawSyl (s : Syl) : Res Str :=
  if ceq s Syl.blank then .ok b!" "
  else if s.isLiteral then do
    pure ((← outputLiteral s.literal) ++ b!"@" ++ toStringInt s.endPos)
  else do
    let a ← mapAt rawInitConsTbl s.iCons1
    let b ← mapAt rawSecInitConsTbl s.iCons2
    let c ← mapAt rawVowelTbl s.vowel
    let d ← mapAt rawEndConsTbl s.eCons
    let e ← mapAt rawToneTbl s.tone
    pure (a ++ b ++ c ++ d ++ e ++ b!"@" ++ toStringInt s.endPos)

/-! ## Phonetic, sylout-phonetic.cxx -/

/-- sylout-phonetic.cxx:16-39 -/
def phoneticInitConsTbl : List (InitConsSound × Str) := [
  (.KA, b!"k"), (.KHA, b!"kh"), (.NGA, b!"ng"), (.JA, b!"j"), (.CHA, b!"ch"), (.YA, b!"y"),
  (.DA, b!"d"), (.TA, b!"t"), (.THA, b!"th"), (.NA, b!"n"), (.BA, b!"b"), (.PA, b!"p"),
  (.PHA, b!"ph"), (.FA, b!"f"), (.MA, b!"m"), (.RA, b!"r"), (.LA, b!"l"), (.WA, b!"w"),
  (.SA, b!"s"), (.HA, b!"h"), (.A, b!"")]
/-- sylout-phonetic.cxx:43-49 -/
def phoneticSecInitConsTbl : List (SecInitCons × Str) := [
  (SC.NONE, b!""), (SC.RA, b!"r"), (SC.LA, b!"l"), (SC.WA, b!"w")]
/-- sylout-phonetic.cxx:53-79 -/
def phoneticVowelTbl : List (Vowel × Str) := [
  (VW.A, b!"ah"), (VW.AA, b!"aa"), (VW.I, b!"ih"), (VW.II, b!"iy"), (VW.UE, b!"ueh"),
  (VW.UEE, b!"uee"), (VW.U, b!"uh"), (VW.UU, b!"uw"), (VW.E, b!"eh"), (VW.EE, b!"ey"),
  (VW.AE, b!"aeh"), (VW.AEE, b!"aee"), (VW.IA, b!"iah"), (VW.IAA, b!"iaa"), (VW.UEA, b!"ueah"),
  (VW.UEAA, b!"ueaa"), (VW.UA, b!"uah"), (VW.UAA, b!"uaa"), (VW.O, b!"oh"), (VW.OO, b!"ow"),
  (VW.AU, b!"aoh"), (VW.AUU, b!"aow"), (VW.OE, b!"oeh"), (VW.OEE, b!"oee")]
/-- sylout-phonetic.cxx:83-94 -/
def phoneticEndConsTbl : List (EndConsClass × Str) := [
  (.NONE, b!""), (.KOK, b!"k"), (.KOT, b!"t"), (.KOP, b!"p"), (.KONG, b!"ng"), (.KON, b!"n"),
  (.KOM, b!"m"), (.KOEY, b!"y"), (.KOEW, b!"w")]
/-- sylout-phonetic.cxx:102-109 -/
def phoneticToneTbl : List (Tone × Str) := [
  (.SAMAN, b!"0"), (.EK, b!"1"), (.THO, b!"2"), (.TRI, b!"3"), (.CHATTAWA, b!"4")]

/-- sylout-phonetic.cxx:112-126 -/
def phoneticSyl (s : Syl) : Res Str :=
  if ceq s Syl.blank then .ok b!" "
  else if s.isLiteral then outputLiteral s.literal
  else do
    let a ← mapAt phoneticInitConsTbl s.iCons1
    let b ← mapAt phoneticSecInitConsTbl s.iCons2
    let c ← mapAt phoneticVowelTbl s.vowel
    let d ← mapAt phoneticEndConsTbl s.eCons
    let e ← mapAt phoneticToneTbl s.tone
    pure (a ++ b ++ c ++ d ++ e)

/-! ## Romanization, sylout-roman.cxx -/

/-- sylout-roman.cxx:16-39 -/
def romanInitConsTbl : List (InitConsSound × Str) := [
  (.KA, b!"k"), (.KHA, b!"kh"), (.NGA, b!"ng"), (.JA, b!"ch"), (.CHA, b!"ch"), (.YA, b!"y"),
  (.DA, b!"d"), (.TA, b!"t"), (.THA, b!"th"), (.NA, b!"n"), (.BA, b!"b"), (.PA, b!"p"),
  (.PHA, b!"ph"), (.FA, b!"f"), (.MA, b!"m"), (.RA, b!"r"), (.LA, b!"l"), (.WA, b!"w"),
  (.SA, b!"s"), (.HA, b!"h"), (.A, b!"")]
/-- sylout-roman.cxx:43-49 -/
def romanSecInitConsTbl : List (SecInitCons × Str) := [
  (SC.NONE, b!""), (SC.RA, b!"r"), (SC.LA, b!"l"), (SC.WA, b!"w")]
/-- sylout-roman.cxx:53-79 -/
def romanVowelTbl : List (Vowel × Str) := [
  (VW.A, b!"a"), (VW.AA, b!"a"), (VW.I, b!"i"), (VW.II, b!"i"), (VW.UE, b!"ue"),
  (VW.UEE, b!"ue"), (VW.U, b!"u"), (VW.UU, b!"u"), (VW.E, b!"e"), (VW.EE, b!"e"),
  (VW.AE, b!"ae"), (VW.AEE, b!"ae"), (VW.IA, b!"ia"), (VW.IAA, b!"ia"), (VW.UEA, b!"uea"),
  (VW.UEAA, b!"uea"), (VW.UA, b!"ua"), (VW.UAA, b!"ua"), (VW.O, b!"o"), (VW.OO, b!"o"),
  (VW.AU, b!"o"), (VW.AUU, b!"o"), (VW.OE, b!"oe"), (VW.OEE, b!"oe")]
/-- sylout-roman.cxx:83-94 -/
def romanEndConsTbl : List (EndConsClass × Str) := [
  (.NONE, b!""), (.KOK, b!"k"), (.KOT, b!"t"), (.KOP, b!"p"), (.KONG, b!"ng"), (.KON, b!"n"),
  (.KOM, b!"m"), (.KOEY, b!"i"), (.KOEW, b!"o")]

/-- sylout-roman.cxx:97-110 -/
def romanSyl (s : Syl) : Res Str :=
  if ceq s Syl.blank then .ok b!" "
  else if s.isLiteral then outputLiteral s.literal
  else do
    let a ← mapAt romanInitConsTbl s.iCons1
    let b ← mapAt romanSecInitConsTbl s.iCons2
    let c ← mapAt romanVowelTbl s.vowel
    let d ← mapAt romanEndConsTbl s.eCons
    pure (a ++ b ++ c ++ d)

/-! ## Soundex, sylout-soundex.cxx -/

/-- sylout-soundex.cxx:16-39 -/
def soundexInitConsTbl : List (InitConsSound × Str) := [
  (.KA, b!"k"), (.KHA, b!"c"), (.NGA, b!"g"), (.JA, b!"j"), (.CHA, b!"J"), (.YA, b!"y"),
  (.DA, b!"d"), (.TA, b!"t"), (.THA, b!"T"), (.NA, b!"n"), (.BA, b!"b"), (.PA, b!"p"),
  (.PHA, b!"P"), (.FA, b!"f"), (.MA, b!"m"), (.RA, b!"l"), (.LA, b!"l"), (.WA, b!"w"),
  (.SA, b!"s"), (.HA, b!"h"), (.A, b!"?")]
/-- sylout-soundex.cxx:43-69 -/
def soundexVowelTbl : List (Vowel × Str) := [
  (VW.A, b!"a"), (VW.AA, b!"a"), (VW.I, b!"i"), (VW.II, b!"i"), (VW.UE, b!"v"), (VW.UEE, b!"v"),
  (VW.U, b!"u"), (VW.UU, b!"u"), (VW.E, b!"e"), (VW.EE, b!"e"), (VW.AE, b!"x"), (VW.AEE, b!"x"),
  (VW.IA, b!"y"), (VW.IAA, b!"y"), (VW.UEA, b!"z"), (VW.UEAA, b!"z"), (VW.UA, b!"t"),
  (VW.UAA, b!"t"), (VW.O, b!"o"), (VW.OO, b!"o"), (VW.AU, b!"c"), (VW.AUU, b!"c"),
  (VW.OE, b!"w"), (VW.OEE, b!"w")]
/-- sylout-soundex.cxx:73-84 -/
def soundexEndConsTbl : List (EndConsClass × Str) := [
  (.NONE, b!"_"), (.KOK, b!"k"), (.KOT, b!"t"), (.KOP, b!"p"), (.KONG, b!"g"), (.KON, b!"n"),
  (.KOM, b!"m"), (.KOEY, b!"y"), (.KOEW, b!"w")]

/-- sylout-soundex.cxx:87-99 -/
def soundexSyl (s : Syl) : Res Str :=
  if ceq s Syl.blank then .ok b!" "
  else if s.isLiteral then outputLiteral s.literal
  else do
    let a ← mapAt soundexInitConsTbl s.iCons1
    let b ← mapAt soundexVowelTbl s.vowel
    let c ← mapAt soundexEndConsTbl s.eCons
    pure (a ++ b ++ c)

/-! ## Thai respelling, sylout-thai.cxx -/

/-- sylout-thai.cxx:18-24 -/
def isDeadSyl (isShort : Bool) (eCons : EndConsClass) : Bool :=
  isDeadEndConsClass eCons || (isShort && decide (EndConsClass.NONE = eCons))

/-- sylout-thai.cxx:57-66 -/
def thaiMidConsSet : List InitConsSound := [.KA, .JA, .DA, .TA, .BA, .PA, .A]
/-- sylout-thai.cxx:68-77 -/
def thaiMidCons1Tbl : List (InitConsSound × Str) := [
  (.KA, b!"ก"), (.JA, b!"จ"), (.DA, b!"ด"), (.TA, b!"ต"), (.BA, b!"บ"), (.PA, b!"ป"), (.A, b!"อ")]
/-- sylout-thai.cxx:79-95 -/
def thaiHighLowInitCons1Tbl : List (InitConsSound × (Str × Str)) := [
  (.KHA, (b!"ข", b!"ค")), (.NGA, (b!"หฺง", b!"ง")), (.CHA, (b!"ฉ", b!"ช")),
  (.YA, (b!"หฺย", b!"ย")), (.THA, (b!"ถ", b!"ท")), (.NA, (b!"หฺน", b!"น")),
  (.PHA, (b!"ผ", b!"พ")), (.FA, (b!"ฝ", b!"ฟ")), (.MA, (b!"หฺม", b!"ม")),
  (.RA, (b!"หฺร", b!"ร")), (.LA, (b!"หฺล", b!"ล")), (.WA, (b!"หฺว", b!"ว")),
  (.SA, (b!"ส", b!"ซ")), (.HA, (b!"ห", b!"ฮ"))]
/-- sylout-thai.cxx:103-109 -/
def thaiSecIConsTbl : List (SecInitCons × Str) := [
  (SC.NONE, b!""), (SC.RA, b!"ฺร"), (SC.LA, b!"ฺล"), (SC.WA, b!"ฺว")]
/-- sylout-thai.cxx:118-129 -/
def thaiEndConsTbl : List (EndConsClass × Str) := [
  (.NONE, b!""), (.KOK, b!"ก"), (.KOT, b!"ด"), (.KOP, b!"บ"), (.KONG, b!"ง"), (.KON, b!"น"),
  (.KOM, b!"ม"), (.KOEY, b!"ย"), (.KOEW, b!"ว")]

/-! sylout-thai.cxx:26-50 -/
def YO_STR : Str := b!"ย"
def WO_STR : Str := b!"ว"
def AU_STR : Str := b!"อ"
def SARA_A_STR : Str := b!"ะ"
def MAI_HAN_AKAT_STR : Str := b!"ั"
def SARA_AA_STR : Str := b!"า"
def SARA_I_STR : Str := b!"ิ"
def SARA_II_STR : Str := b!"ี"
def SARA_UE_STR : Str := b!"ึ"
def SARA_UEE_STR : Str := b!"ื"
def SARA_U_STR : Str := b!"ุ"
def SARA_UU_STR : Str := b!"ู"
def SARA_E_STR : Str := b!"เ"
def SARA_AE_STR : Str := b!"แ"
def SARA_O_STR : Str := b!"โ"
def MAITAIKHU_STR : Str := b!"็"
def TONE_EK_STR : Str := b!"่"
def TONE_THO_STR : Str := b!"้"
def TONE_TRI_STR : Str := b!"๊"
def TONE_CHATTAWA_STR : Str := b!"๋"

/-- sylout-thai.cxx:137-144 -/
def thaiToneTbl : List (Tone × Str) := [
  (.SAMAN, b!""), (.EK, TONE_EK_STR), (.THO, TONE_THO_STR), (.TRI, TONE_TRI_STR),
  (.CHATTAWA, TONE_CHATTAWA_STR)]

/-- sylout-thai.cxx:151-187 (no `case` for an invalid tone: both strings stay empty) -/
def thaiLiveIConsTonePair (iCons1 : InitConsSound) (iCons2 : SecInitCons) (tone : Tone) :
    Res (Str × Str) := do
  let p ←
    if iCons1 ∈ thaiMidConsSet then do
      let i ← mapAt thaiMidCons1Tbl iCons1
      let t ← mapAt thaiToneTbl tone
      pure (i, t)
    else do
      let hilo ← mapAt thaiHighLowInitCons1Tbl iCons1
      match tone with
      | .SAMAN => pure (hilo.2, [])
      | .EK => pure (hilo.1, TONE_EK_STR)
      | .THO => pure (hilo.2, TONE_EK_STR)
      | .TRI => pure (hilo.2, TONE_THO_STR)
      | .CHATTAWA => pure (hilo.1, [])
      | .INVALID => pure ([], [])
  let s ← mapAt thaiSecIConsTbl iCons2
  pure (p.1 ++ s, p.2)

/-- sylout-thai.cxx:189-227 -/
def thaiDeadShortIConsTonePair (iCons1 : InitConsSound) (iCons2 : SecInitCons) (tone : Tone) :
    Res (Str × Str) := do
  let p ←
    if iCons1 ∈ thaiMidConsSet then do
      let i ← mapAt thaiMidCons1Tbl iCons1
      let t ← if Tone.EK ≠ tone then mapAt thaiToneTbl tone else pure []
      pure (i, t)
    else do
      let hilo ← mapAt thaiHighLowInitCons1Tbl iCons1
      match tone with
      | .SAMAN => pure (hilo.2, [])
      | .EK => pure (hilo.1, [])
      | .THO => pure (hilo.2, TONE_EK_STR)
      | .TRI => pure (hilo.2, [])
      | .CHATTAWA => pure (hilo.2, TONE_CHATTAWA_STR)
      | .INVALID => pure ([], [])
  let s ← mapAt thaiSecIConsTbl iCons2
  pure (p.1 ++ s, p.2)

/-- sylout-thai.cxx:229-267 -/
def thaiDeadLongIConsTonePair (iCons1 : InitConsSound) (iCons2 : SecInitCons) (tone : Tone) :
    Res (Str × Str) := do
  let p ←
    if iCons1 ∈ thaiMidConsSet then do
      let i ← mapAt thaiMidCons1Tbl iCons1
      let t ← if Tone.EK ≠ tone then mapAt thaiToneTbl tone else pure []
      pure (i, t)
    else do
      let hilo ← mapAt thaiHighLowInitCons1Tbl iCons1
      match tone with
      | .SAMAN => pure (hilo.2, [])
      | .EK => pure (hilo.1, [])
      | .THO => pure (hilo.2, [])
      | .TRI => pure (hilo.2, TONE_THO_STR)
      | .CHATTAWA => pure (hilo.2, TONE_CHATTAWA_STR)
      | .INVALID => pure ([], [])
  let s ← mapAt thaiSecIConsTbl iCons2
  pure (p.1 ++ s, p.2)

/-- The conditional choosing the pair, e.g. sylout-thai.cxx:327-332 -/
def thaiPair (isShort : Bool) (iCons1 : InitConsSound) (iCons2 : SecInitCons)
    (eCons : EndConsClass) (tone : Tone) : Res (Str × Str) :=
  if isDeadSyl isShort eCons then
    if isShort then thaiDeadShortIConsTonePair iCons1 iCons2 tone
    else thaiDeadLongIConsTonePair iCons1 iCons2 tone
  else thaiLiveIConsTonePair iCons1 iCons2 tone

/-- sylout-thai.cxx:274-295 -/
def thaiSylA (i1 : InitConsSound) (i2 : SecInitCons) (eCons : EndConsClass) (tone : Tone) :
    Res Str :=
  if EndConsClass.NONE = eCons then do
    let p ← thaiDeadShortIConsTonePair i1 i2 tone
    pure (p.1 ++ p.2 ++ SARA_A_STR)
  else if EndConsClass.KOEW = eCons then do
    let p ← thaiLiveIConsTonePair i1 i2 tone
    pure (SARA_E_STR ++ p.1 ++ p.2 ++ SARA_AA_STR)
  else do
    let p ← thaiPair true i1 i2 eCons tone
    let e ← mapAt thaiEndConsTbl eCons
    pure (p.1 ++ MAI_HAN_AKAT_STR ++ p.2 ++ e)

/-- sylout-thai.cxx:298-308 -/
def thaiSylAA (i1 : InitConsSound) (i2 : SecInitCons) (eCons : EndConsClass) (tone : Tone) :
    Res Str := do
  let p ← thaiPair false i1 i2 eCons tone
  let e ← mapAt thaiEndConsTbl eCons
  pure (p.1 ++ p.2 ++ SARA_AA_STR ++ e)

/-- sylout-thai.cxx:319-325 -/
def thaiBelowAboveTbl : List (Vowel × Str) := [
  (VW.I, SARA_I_STR), (VW.II, SARA_II_STR), (VW.UE, SARA_UE_STR), (VW.U, SARA_U_STR),
  (VW.UU, SARA_UU_STR)]

/-- sylout-thai.cxx:311-335 -/
def thaiSylBelowAbove (i1 : InitConsSound) (i2 : SecInitCons) (isShort : Bool) (vowel : Vowel)
    (eCons : EndConsClass) (tone : Tone) : Res Str := do
  let p ← thaiPair isShort i1 i2 eCons tone
  let v ← mapAt thaiBelowAboveTbl vowel
  let e ← mapAt thaiEndConsTbl eCons
  pure (p.1 ++ v ++ p.2 ++ e)

/-- sylout-thai.cxx:338-349 -/
def thaiSylUEE (i1 : InitConsSound) (i2 : SecInitCons) (eCons : EndConsClass) (tone : Tone) :
    Res Str := do
  let p ← thaiPair false i1 i2 eCons tone
  let e ← if EndConsClass.NONE = eCons then pure AU_STR else mapAt thaiEndConsTbl eCons
  pure (p.1 ++ SARA_UEE_STR ++ p.2 ++ e)

/-- sylout-thai.cxx:352-373 -/
def thaiSylLeadShort (i1 : InitConsSound) (i2 : SecInitCons) (vowel : Vowel)
    (eCons : EndConsClass) (tone : Tone) : Res Str := do
  let p ← thaiPair true i1 i2 eCons tone
  let t := if EndConsClass.NONE ≠ eCons ∧ p.2 = [] then MAITAIKHU_STR else p.2
  let v ← mapAt [(VW.E, SARA_E_STR), (VW.AE, SARA_AE_STR)] vowel
  let e ← if EndConsClass.NONE = eCons then pure SARA_A_STR else mapAt thaiEndConsTbl eCons
  pure (v ++ p.1 ++ t ++ e)

/-- sylout-thai.cxx:376-394 -/
def thaiSylLeadLong (i1 : InitConsSound) (i2 : SecInitCons) (vowel : Vowel)
    (eCons : EndConsClass) (tone : Tone) : Res Str := do
  let p ← thaiPair false i1 i2 eCons tone
  let v ← mapAt [(VW.EE, SARA_E_STR), (VW.AEE, SARA_AE_STR), (VW.OO, SARA_O_STR)] vowel
  let e ← mapAt thaiEndConsTbl eCons
  pure (v ++ p.1 ++ p.2 ++ e)

/-- sylout-thai.cxx:397-412 -/
def thaiSylO (i1 : InitConsSound) (i2 : SecInitCons) (eCons : EndConsClass) (tone : Tone) :
    Res Str := do
  let p ← thaiPair true i1 i2 eCons tone
  if EndConsClass.NONE = eCons then pure (SARA_O_STR ++ p.1 ++ p.2 ++ SARA_A_STR)
  else do
    let e ← mapAt thaiEndConsTbl eCons
    pure (p.1 ++ p.2 ++ e)

/-- sylout-thai.cxx:415-434 -/
def thaiSylIA (i1 : InitConsSound) (i2 : SecInitCons) (isShort : Bool) (eCons : EndConsClass)
    (tone : Tone) : Res Str := do
  let isShort := if EndConsClass.NONE ≠ eCons then false else isShort
  let p ← thaiPair isShort i1 i2 eCons tone
  let e ← if isShort then pure SARA_A_STR else mapAt thaiEndConsTbl eCons
  pure (SARA_E_STR ++ p.1 ++ SARA_II_STR ++ p.2 ++ YO_STR ++ e)

/-- sylout-thai.cxx:437-456 -/
def thaiSylUEA (i1 : InitConsSound) (i2 : SecInitCons) (isShort : Bool) (eCons : EndConsClass)
    (tone : Tone) : Res Str := do
  let isShort := if EndConsClass.NONE ≠ eCons then false else isShort
  let p ← thaiPair isShort i1 i2 eCons tone
  let e ← if isShort then pure SARA_A_STR else mapAt thaiEndConsTbl eCons
  pure (SARA_E_STR ++ p.1 ++ SARA_UEE_STR ++ p.2 ++ AU_STR ++ e)

/-- sylout-thai.cxx:459-483 -/
def thaiSylUA (i1 : InitConsSound) (i2 : SecInitCons) (isShort : Bool) (eCons : EndConsClass)
    (tone : Tone) : Res Str := do
  let p ← thaiPair isShort i1 i2 eCons tone
  let t := if isShort = true ∧ EndConsClass.NONE ≠ eCons ∧ p.2 = [] then MAITAIKHU_STR else p.2
  if EndConsClass.NONE = eCons then
    pure (p.1 ++ MAI_HAN_AKAT_STR ++ t ++ WO_STR ++ (if isShort then SARA_A_STR else []))
  else do
    let e ← mapAt thaiEndConsTbl eCons
    pure (p.1 ++ t ++ WO_STR ++ e)

/-- sylout-thai.cxx:486-510 -/
def thaiSylAU (i1 : InitConsSound) (i2 : SecInitCons) (isShort : Bool) (eCons : EndConsClass)
    (tone : Tone) : Res Str := do
  let p ← thaiPair isShort i1 i2 eCons tone
  if isShort = true ∧ EndConsClass.NONE = eCons then
    pure (SARA_E_STR ++ p.1 ++ p.2 ++ SARA_AA_STR ++ SARA_A_STR)
  else do
    let t := if isShort = true ∧ p.2 = [] then MAITAIKHU_STR else p.2
    let e ← mapAt thaiEndConsTbl eCons
    pure (p.1 ++ t ++ AU_STR ++ e)

/-- sylout-thai.cxx:513-542 -/
def thaiSylOE (i1 : InitConsSound) (i2 : SecInitCons) (isShort : Bool) (eCons : EndConsClass)
    (tone : Tone) : Res Str := do
  let isShort := if EndConsClass.NONE ≠ eCons then false else isShort
  let p ← thaiPair isShort i1 i2 eCons tone
  if EndConsClass.NONE = eCons then
    pure (SARA_E_STR ++ p.1 ++ p.2 ++ AU_STR ++ (if isShort then SARA_A_STR else []))
  else if EndConsClass.KOEY = eCons then pure (SARA_E_STR ++ p.1 ++ p.2 ++ YO_STR)
  else do
    let e ← mapAt thaiEndConsTbl eCons
    pure (SARA_E_STR ++ p.1 ++ SARA_I_STR ++ p.2 ++ e)

/-- sylout-thai.cxx:548-633 (the `switch`, in the order of its cases; `default` is a blank) -/
def thaiSyl (s : Syl) : Res Str :=
  let v := s.vowel
  if s.isLiteral then outputLiteral s.literal
  else if v = VW.A then thaiSylA s.iCons1 s.iCons2 s.eCons s.tone
  else if v = VW.AA then thaiSylAA s.iCons1 s.iCons2 s.eCons s.tone
  else if v = VW.I ∨ v = VW.UE ∨ v = VW.U then
    thaiSylBelowAbove s.iCons1 s.iCons2 true v s.eCons s.tone
  else if v = VW.II ∨ v = VW.UU then
    thaiSylBelowAbove s.iCons1 s.iCons2 false v s.eCons s.tone
  else if v = VW.UEE then thaiSylUEE s.iCons1 s.iCons2 s.eCons s.tone
  else if v = VW.E ∨ v = VW.AE then thaiSylLeadShort s.iCons1 s.iCons2 v s.eCons s.tone
  else if v = VW.EE ∨ v = VW.AEE ∨ v = VW.OO then
    thaiSylLeadLong s.iCons1 s.iCons2 v s.eCons s.tone
  else if v = VW.O then thaiSylO s.iCons1 s.iCons2 s.eCons s.tone
  else if v = VW.IA then thaiSylIA s.iCons1 s.iCons2 true s.eCons s.tone
  else if v = VW.IAA then thaiSylIA s.iCons1 s.iCons2 false s.eCons s.tone
  else if v = VW.UEA then thaiSylUEA s.iCons1 s.iCons2 true s.eCons s.tone
  else if v = VW.UEAA then thaiSylUEA s.iCons1 s.iCons2 false s.eCons s.tone
  else if v = VW.UA then thaiSylUA s.iCons1 s.iCons2 true s.eCons s.tone
  else if v = VW.UAA then thaiSylUA s.iCons1 s.iCons2 false s.eCons s.tone
  else if v = VW.AU then thaiSylAU s.iCons1 s.iCons2 true s.eCons s.tone
  else if v = VW.AUU then thaiSylAU s.iCons1 s.iCons2 false s.eCons s.tone
  else if v = VW.OE then thaiSylOE s.iCons1 s.iCons2 true s.eCons s.tone
  else if v = VW.OEE then thaiSylOE s.iCons1 s.iCons2 false s.eCons s.tone
  else .ok b!" "

end Thpronun
