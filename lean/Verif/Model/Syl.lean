import Verif.Model.ThCons

/-! # Syllables: `sylstring/sylcomp.{h,cxx,inl}`, `sylstring/syl.{h,cxx,inl}` -/

namespace Thpronun

/-- C++ `operator==` of a class type (kept apart from Lean's equality: `Syl::operator==`
ignores the end position). -/
class CppEq (α : Type u) where
  ceq : α → α → Bool

export CppEq (ceq)

/-- sylcomp.cxx:11-37 -/
def initConsCodeToSoundTbl : List (Byte × InitConsSound) := [
  (ch!"*", .INVALID),
  (ch!"k", .KA), (ch!"c", .KHA), (ch!"g", .NGA), (ch!"j", .JA), (ch!"J", .CHA), (ch!"y", .YA),
  (ch!"d", .DA), (ch!"t", .TA), (ch!"T", .THA), (ch!"n", .NA), (ch!"b", .BA), (ch!"p", .PA),
  (ch!"P", .PHA), (ch!"f", .FA), (ch!"m", .MA), (ch!"r", .RA), (ch!"l", .LA), (ch!"w", .WA),
  (ch!"s", .SA), (ch!"h", .HA), (ch!"?", .A)]

/-- sylcomp.cxx:39-43 -/
def initConsCodeToSound (c : Byte) : Res InitConsSound := mapAt initConsCodeToSoundTbl c

/-- sylcomp.cxx:45-58 -/
def endConsCodeToClassTbl : List (Byte × EndConsClass) := [
  (ch!"_", .NONE), (ch!"k", .KOK), (ch!"t", .KOT), (ch!"p", .KOP), (ch!"g", .KONG),
  (ch!"n", .KON), (ch!"m", .KOM), (ch!"y", .KOEY), (ch!"w", .KOEW)]

/-- sylcomp.cxx:60-64 -/
def endConsCodeToClass (c : Byte) : Res EndConsClass := mapAt endConsCodeToClassTbl c

/-- sylcomp.cxx:66-74 -/
def toneCodeToToneTbl : List (Byte × Tone) := [
  (ch!"*", .INVALID), (ch!"0", .SAMAN), (ch!"1", .EK), (ch!"2", .THO), (ch!"3", .TRI),
  (ch!"4", .CHATTAWA)]

/-- sylcomp.cxx:76-80 -/
def toneCodeToTone (c : Byte) : Res Tone := mapAt toneCodeToToneTbl c

/-- `enum class ESecInitCons` (sylcomp.h:22-27): the underlying `int`. Any value can arise because
the constructors `static_cast` an unchecked `char`. -/
macro "SecInitCons" : term => `(Int)
namespace SC
abbrev NONE : SecInitCons := ch!"_"
abbrev RA : SecInitCons := ch!"r"
abbrev LA : SecInitCons := ch!"l"
abbrev WA : SecInitCons := ch!"w"
end SC

/-- `enum class EVowel` (sylcomp.h:29-55): the underlying `int` (see `SecInitCons`). -/
macro "Vowel" : term => `(Int)
namespace VW
abbrev INVALID : Vowel := ch!"*"
abbrev A : Vowel := ch!"a"
abbrev AA : Vowel := ch!"A"
abbrev I : Vowel := ch!"i"
abbrev II : Vowel := ch!"I"
abbrev UE : Vowel := ch!"v"
abbrev UEE : Vowel := ch!"V"
abbrev U : Vowel := ch!"u"
abbrev UU : Vowel := ch!"U"
abbrev E : Vowel := ch!"e"
abbrev EE : Vowel := ch!"E"
abbrev AE : Vowel := ch!"x"
abbrev AEE : Vowel := ch!"X"
abbrev IA : Vowel := ch!"y"
abbrev IAA : Vowel := ch!"Y"
abbrev UEA : Vowel := ch!"z"
abbrev UEAA : Vowel := ch!"Z"
abbrev UA : Vowel := ch!"t"
abbrev UAA : Vowel := ch!"T"
abbrev O : Vowel := ch!"o"
abbrev OO : Vowel := ch!"O"
abbrev AU : Vowel := ch!"c"
abbrev AUU : Vowel := ch!"C"
abbrev OE : Vowel := ch!"w"
abbrev OEE : Vowel := ch!"W"
end VW

/-- sylcomp.inl:7-11 (`IsShortVowel`): `std::islower` in the "C" locale. (Only ever called on
enumerators, so `islower`'s domain restriction is met.) -/
def isShortVowel (v : Vowel) : Bool := decide (97 ≤ v) && decide (v ≤ 122)

/-- syl.h:48-57. The literal is a `u16string`; `isLiteral` means it is non-empty. -/
structure Syl where
  iCons1 : InitConsSound
  iCons2 : SecInitCons
  vowel : Vowel
  eCons : EndConsClass
  tone : Tone
  literal : U16Str
  endPos : Int
  deriving DecidableEq, Repr

namespace Syl

/-- `Syl (int endPos)`, syl.inl:9-19 -/
def blankAt (endPos : Int) : Syl :=
  { iCons1 := .INVALID, iCons2 := SC.NONE, vowel := VW.INVALID, eCons := .NONE,
    tone := .INVALID, literal := [], endPos := endPos }

/-- `Syl::Blank`, syl.cxx:13 (default end position -1, syl.h:17) -/
def blank : Syl := blankAt (-1)

/-- `Syl (int endPos, u16string literal)`, syl.inl:21-31 -/
def lit (endPos : Int) (literal : U16Str) : Syl :=
  { blankAt endPos with literal := literal }

/-- `Syl (iCons1, iCons2, vowel, eCons, tone, endPos)`, syl.inl:45-56 -/
def mk5 (iCons1 : InitConsSound) (iCons2 : SecInitCons) (vowel : Vowel) (eCons : EndConsClass)
    (tone : Tone) (endPos : Int := -1) : Syl :=
  { iCons1, iCons2, vowel, eCons, tone, literal := [], endPos }

/-- syl.inl:101-105 -/
def isLiteral (s : Syl) : Bool := s.literal.length != 0

/-- syl.inl:119-123 -/
def setEndPos (s : Syl) (pos : Int) : Syl := { s with endPos := pos }

/-- `u16string::operator<` (lexicographic by code unit, a proper prefix is smaller). -/
def u16lt : U16Str → U16Str → Bool
  | _, [] => false
  | [], _ :: _ => true
  | a :: as, b :: bs => if a < b then true else if b < a then false else u16lt as bs

/-- syl.cxx:29-48 (`operator==`; `endPos` does not take part) -/
def eq (a b : Syl) : Bool :=
  if a.isLiteral then
    if b.isLiteral then decide (a.literal = b.literal) else false
  else if b.isLiteral then false
  else
    decide (a.iCons1 = b.iCons1) && decide (a.iCons2 = b.iCons2) && decide (a.vowel = b.vowel)
      && decide (a.eCons = b.eCons) && decide (a.tone = b.tone)

instance : CppEq Syl := ⟨Syl.eq⟩

/-- syl.cxx:50-75 (`operator<`) -/
def lt (a b : Syl) : Bool :=
  if a.isLiteral then
    if b.isLiteral then
      if u16lt a.literal b.literal then true
      else if u16lt b.literal a.literal then false
      else decide (a.endPos < b.endPos)
    else true
  else if b.isLiteral then false
  else if a.iCons1.ord < b.iCons1.ord then true
  else if a.iCons1.ord > b.iCons1.ord then false
  else if a.iCons2 < b.iCons2 then true
  else if a.iCons2 > b.iCons2 then false
  else if a.vowel < b.vowel then true
  else if a.vowel > b.vowel then false
  else if a.eCons.ord < b.eCons.ord then true
  else if a.eCons.ord > b.eCons.ord then false
  else if a.tone.ord < b.tone.ord then true
  else if a.tone.ord > b.tone.ord then false
  else decide (a.endPos < b.endPos)

/-- syl.cxx:77-102 (`operator>`, written out separately in the code) -/
def gt (a b : Syl) : Bool :=
  if a.isLiteral then
    if b.isLiteral then
      if u16lt b.literal a.literal then true
      else if u16lt a.literal b.literal then false
      else decide (a.endPos > b.endPos)
    else false
  else if b.isLiteral then true
  else if a.iCons1.ord > b.iCons1.ord then true
  else if a.iCons1.ord < b.iCons1.ord then false
  else if a.iCons2 > b.iCons2 then true
  else if a.iCons2 < b.iCons2 then false
  else if a.vowel > b.vowel then true
  else if a.vowel < b.vowel then false
  else if a.eCons.ord > b.eCons.ord then true
  else if a.eCons.ord < b.eCons.ord then false
  else if a.tone.ord > b.tone.ord then true
  else if a.tone.ord < b.tone.ord then false
  else decide (a.endPos > b.endPos)

/-- syl.inl:131-135 -/
def le (a b : Syl) : Bool := !gt a b
/-- syl.inl:137-141 -/
def ge (a b : Syl) : Bool := !lt a b
/-- syl.inl:125-129 -/
def ne (a b : Syl) : Bool := !eq a b

end Syl

/-- `std::string::operator[]` (const): the terminating NUL may be read, anything beyond is UB. -/
def strIdx (s : Str) (i : Nat) : Res Byte :=
  match s[i]? with
  | some c => .ok c
  | none => if i = s.length then .ok 0 else .ub

/-- Conversion of a (signed, as on x86) `char` to `int` in `static_cast<E...> (desc[i])`. -/
def signedChar (b : Byte) : Int := if b < 128 then (b : Int) else (b : Int) - 256

/-- White space skipped by `strtol` in the "C" locale. -/
def isSpaceByte (b : Byte) : Bool := decide (b = 32) || (decide (9 ≤ b) && decide (b ≤ 13))

def isDigitByte (b : Byte) : Bool := decide (48 ≤ b) && decide (b ≤ 57)

/-- Digits accumulated by `strtol` in base 10 until the first non-digit. -/
def digitsVal (acc : Nat) : Str → Nat
  | [] => acc
  | b :: bs => if isDigitByte b then digitsVal (acc * 10 + (b - 48)) bs else acc

/-- The optional sign read by `strtol`. -/
def signPart : Str → Bool × Str
  | [] => (false, [])
  | b :: r => if b = 45 then (true, r) else if b = 43 then (false, r) else (false, b :: r)

/-- `std::stoi (s)`: leading white space, optional sign, at least one digit (else
`invalid_argument`), value within `int` (else `out_of_range`), the rest is ignored. -/
def stoi (s : Str) : Res Int :=
  let s := s.dropWhile isSpaceByte
  let (neg, s) := signPart s
  match s with
  | [] => .throw .invalidArgument
  | b :: _ =>
    if isDigitByte b then
      let v : Int := digitsVal 0 s
      let v := if neg then -v else v
      if v < -2147483648 ∨ 2147483647 < v then .throw .outOfRange else .ok v
    else .throw .invalidArgument

/-- Decimal digits of a natural number (fuel `≥ n+1` suffices). -/
def natDecAux : Nat → Nat → Str
  | 0, _ => []
  | f + 1, n => if n < 10 then [48 + n] else natDecAux f (n / 10) ++ [48 + n % 10]

/-- Decimal notation of a natural number. -/
def natDec (n : Nat) : Str := natDecAux (n + 1) n

/-- `std::to_string (int)` -/
def toStringInt (i : Int) : Str :=
  match i with
  | .ofNat n => natDec n
  | .negSucc n => 45 :: natDec (n + 1)

/-- `Syl (const std::string& desc, int endPos)`, syl.cxx:15-27. Members are initialised in
declaration order; the codes at 1 and 2 are cast unchecked. Descriptions shorter than five
characters may read beyond the terminating NUL (UB). -/
def sylOfDesc (desc : Str) (endPos : Int := -1) : Res Syl := do
  let iCons1 ← initConsCodeToSound (← strIdx desc 0)
  let iCons2 := signedChar (← strIdx desc 1)
  let vowel := signedChar (← strIdx desc 2)
  let eCons ← endConsCodeToClass (← strIdx desc 3)
  let tone ← toneCodeToTone (← strIdx desc 4)
  if desc.length > 6 ∧ desc[5]? = some ch!"@" then
    let e ← stoi (desc.drop 6)
    pure { iCons1, iCons2, vowel, eCons, tone, literal := [], endPos := e }
  else
    pure { iCons1, iCons2, vowel, eCons, tone, literal := [], endPos := endPos }

end Thpronun
