import Verif.Model.Basic

/-! # Thai consonant properties: `thortho/thcons.h`, `thortho/thcons.cxx`, `thortho/thcons.inl`,
`thortho/thuni.h` -/

namespace Thpronun

/-- thcons.h:8-14 -/
inductive InitConsClass where
  | INVALID | HIGH | MID | LOWP | LOWS
  deriving DecidableEq, Repr

/-- thcons.h:16-39 -/
inductive InitConsSound where
  | INVALID | KA | KHA | NGA | JA | CHA | YA | DA | TA | THA | NA | BA | PA | PHA | FA | MA
  | RA | LA | WA | SA | HA | A
  deriving DecidableEq, Repr

/-- thcons.h:41-51 -/
inductive EndConsClass where
  | NONE | KOK | KOT | KOP | KONG | KON | KOM | KOEY | KOEW
  deriving DecidableEq, Repr

/-- thcons.h:53-60 -/
inductive Tone where
  | INVALID | SAMAN | EK | THO | TRI | CHATTAWA
  deriving DecidableEq, Repr

/-- Numeric value of the enumerator (used by `<` on `enum class`), thcons.h:16-39. -/
def InitConsSound.ord : InitConsSound → Nat
  | INVALID => 0 | KA => 1 | KHA => 2 | NGA => 3 | JA => 4 | CHA => 5 | YA => 6 | DA => 7
  | TA => 8 | THA => 9 | NA => 10 | BA => 11 | PA => 12 | PHA => 13 | FA => 14 | MA => 15
  | RA => 16 | LA => 17 | WA => 18 | SA => 19 | HA => 20 | A => 21

/-- thcons.h:41-51 -/
def EndConsClass.ord : EndConsClass → Nat
  | NONE => 0 | KOK => 1 | KOT => 2 | KOP => 3 | KONG => 4 | KON => 5 | KOM => 6 | KOEY => 7
  | KOEW => 8

/-- thcons.h:53-60 -/
def Tone.ord : Tone → Nat
  | INVALID => 0 | SAMAN => 1 | EK => 2 | THO => 3 | TRI => 4 | CHATTAWA => 5

/-! Unicode constants, thuni.h:8-94 (those used by the code). -/
namespace UTH
def KO_KAI : U16 := 0x0e01
def KHO_KHAI : U16 := 0x0e02
def KHO_KHUAT : U16 := 0x0e03
def KHO_KHWAI : U16 := 0x0e04
def CHO_CHAN : U16 := 0x0e08
def CHO_CHANG : U16 := 0x0e0a
def SO_SO : U16 := 0x0e0b
def THO_PHUTHAO : U16 := 0x0e12
def NO_NEN : U16 := 0x0e13
def DO_DEK : U16 := 0x0e14
def TO_TAO : U16 := 0x0e15
def THO_THAHAN : U16 := 0x0e17
def THO_THONG : U16 := 0x0e18
def NO_NU : U16 := 0x0e19
def BO_BAIMAI : U16 := 0x0e1a
def PO_PLA : U16 := 0x0e1b
def PHO_PHUNG : U16 := 0x0e1c
def PHO_PHAN : U16 := 0x0e1e
def FO_FAN : U16 := 0x0e1f
def PHO_SAMPHAO : U16 := 0x0e20
def MO_MA : U16 := 0x0e21
def YO_YAK : U16 := 0x0e22
def RO_RUA : U16 := 0x0e23
def RU : U16 := 0x0e24
def LO_LING : U16 := 0x0e25
def LU : U16 := 0x0e26
def WO_WAEN : U16 := 0x0e27
def SO_SALA : U16 := 0x0e28
def SO_RUSI : U16 := 0x0e29
def SO_SUA : U16 := 0x0e2a
def HO_HIP : U16 := 0x0e2b
def O_ANG : U16 := 0x0e2d
def HO_NOKHUK : U16 := 0x0e2e
def SARA_A : U16 := 0x0e30
def MAI_HAN_AKAT : U16 := 0x0e31
def SARA_AA : U16 := 0x0e32
def SARA_AM : U16 := 0x0e33
def SARA_I : U16 := 0x0e34
def SARA_II : U16 := 0x0e35
def SARA_UE : U16 := 0x0e36
def SARA_UEE : U16 := 0x0e37
def SARA_U : U16 := 0x0e38
def SARA_UU : U16 := 0x0e39
def SARA_E : U16 := 0x0e40
def SARA_AE : U16 := 0x0e41
def SARA_O : U16 := 0x0e42
def SARA_AI_MAIMUAN : U16 := 0x0e43
def SARA_AI_MAIMALAI : U16 := 0x0e44
def LAKKHANGYAO : U16 := 0x0e45
def MAITAIKHU : U16 := 0x0e47
def MAI_EK : U16 := 0x0e48
def MAI_THO : U16 := 0x0e49
def MAI_TRI : U16 := 0x0e4a
def MAI_CHATTAWA : U16 := 0x0e4b
def THANTHAKHAT : U16 := 0x0e4c
end UTH

section
open InitConsClass
/-- thcons.cxx:14-29 -/
def initConsClassTbl : List InitConsClass := [
  -- ก ข ฃ ค ฅ ฆ ง
  MID, HIGH, HIGH, LOWP, LOWP, LOWP, LOWS,
  -- จ ฉ ช ซ ฌ ญ
  MID, HIGH, LOWP, LOWP, LOWP, LOWS,
  -- ฎ ฏ ฐ ฑ ฒ ณ
  MID, MID, HIGH, LOWP, LOWP, LOWS,
  -- ด ต ถ ท ธ น
  MID, MID, HIGH, LOWP, LOWP, LOWS,
  -- บ ป ผ ฝ พ ฟ ภ ม
  MID, MID, HIGH, HIGH, LOWP, LOWP, LOWP, LOWS,
  -- ย ร ฤ ล ฦ ว
  LOWS, LOWS, LOWS, LOWS, LOWS, LOWS,
  -- ศ ษ ส ห ฬ อ ฮ
  HIGH, HIGH, HIGH, HIGH, LOWS, MID, LOWP]
end

section
open InitConsSound
/-- thcons.cxx:42-57 -/
def initConsSoundTbl : List InitConsSound := [
  KA, KHA, KHA, KHA, KHA, KHA, NGA,
  JA, CHA, CHA, SA, CHA, YA,
  DA, TA, THA, THA, THA, NA,
  DA, TA, THA, THA, THA, NA,
  BA, PA, PHA, FA, PHA, FA, PHA, MA,
  YA, RA, INVALID, LA, INVALID, WA,
  SA, SA, SA, HA, LA, A, HA]
end

section
open EndConsClass
/-- thcons.cxx:70-85 -/
def endConsClassTbl : List EndConsClass := [
  KOK, KOK, KOK, KOK, KOK, KOK, KONG,
  KOT, KOT, KOT, KOT, KOT, KON,
  KOT, KOT, KOT, KOT, KOT, KON,
  KOT, KOT, KOT, KOT, KOT, KON,
  KOP, KOP, KOP, KOP, KOP, KOP, KOP, KOM,
  KOEY, KON, NONE, KON, NONE, KOEW,
  KOT, KOT, KOT, NONE, KON, NONE, NONE]
end

/-- Unchecked C array access `tbl[c - UTH_KO_KAI]` (`int` arithmetic): outside the array it is UB.
thcons.cxx:36-37, 64-65, 92-93 (the `assert` is compiled out). -/
def consTblGet {α} (tbl : List α) (c : U16) : Res α :=
  if c < UTH.KO_KAI then .ub else
  match tbl[c - UTH.KO_KAI]? with
  | some v => .ok v
  | none => .ub

/-- thcons.cxx:33-38 -/
def initConsClass (c : U16) : Res InitConsClass := consTblGet initConsClassTbl c
/-- thcons.cxx:61-66 -/
def initConsSound (c : U16) : Res InitConsSound := consTblGet initConsSoundTbl c
/-- thcons.cxx:89-94 -/
def endConsClass (c : U16) : Res EndConsClass := consTblGet endConsClassTbl c

/-- thcons.inl:5-11 (`IsDeadEndConsClass`) -/
def isDeadEndConsClass (c : EndConsClass) : Bool :=
  EndConsClass.KOK = c || EndConsClass.KOT = c || EndConsClass.KOP = c

/-- thcons.cxx:96-132 (`ToneFromWritten`) -/
def toneFromWritten (cls : InitConsClass) (written : Tone) (isDeadEnd isShortVowel : Bool) : Tone :=
  match cls with
  | .MID => if written = .SAMAN ∧ isDeadEnd then .EK else written
  | .HIGH =>
    if written = .SAMAN then (if isDeadEnd then .EK else .CHATTAWA) else written
  | .LOWP | .LOWS =>
    match written with
    | .SAMAN => if isDeadEnd then (if isShortVowel then .TRI else .THO) else written
    | .EK => .THO
    | .THO => .TRI
    | _ => written
  | .INVALID => written

end Thpronun
