import Verif.Model.Basic

/-! # UTF-8 / UTF-16 conversion

Stands for `std::wstring_convert<std::codecvt_utf8_utf16<char16_t>, char16_t>`
(parser.cxx:1979-1980, isyl-output.cxx:16-17), which is library code and not modelled line by line:
ill-formed input raises `std::range_error`; well-formed input is converted per RFC 3629 / 2781. -/

namespace Thpronun

/-- A Unicode scalar value. -/
def isScalar (c : Nat) : Bool := decide (c < 0xd800) || (decide (0xe000 ≤ c) && decide (c < 0x110000))

/-- UTF-16 code units to code points (`none`: unpaired surrogate). -/
def utf16Decode : U16Str → Option (List Nat)
  | [] => some []
  | u :: us =>
    if u < 0xd800 ∨ (0xe000 ≤ u ∧ u < 0x10000) then (utf16Decode us).map (u :: ·)
    else if u < 0xdc00 then
      match us with
      | [] => none
      | l :: us' =>
        if 0xdc00 ≤ l ∧ l < 0xe000 then
          (utf16Decode us').map ((0x10000 + (u - 0xd800) * 0x400 + (l - 0xdc00)) :: ·)
        else none
    else none

/-- Code point to UTF-16 code units. -/
def utf16EncodeOne (c : Nat) : U16Str :=
  if c < 0x10000 then [c]
  else [0xd800 + (c - 0x10000) / 0x400, 0xdc00 + (c - 0x10000) % 0x400]

/-- Code point to UTF-8 bytes. -/
def utf8EncodeOne (c : Nat) : Str :=
  if c < 0x80 then [c]
  else if c < 0x800 then [0xc0 + c / 0x40, 0x80 + c % 0x40]
  else if c < 0x10000 then [0xe0 + c / 0x1000, 0x80 + c / 0x40 % 0x40, 0x80 + c % 0x40]
  else [0xf0 + c / 0x40000, 0x80 + c / 0x1000 % 0x40, 0x80 + c / 0x40 % 0x40, 0x80 + c % 0x40]

def isCont (b : Byte) : Bool := decide (0x80 ≤ b) && decide (b < 0xc0)

/-- UTF-8 bytes to code points (`none`: ill-formed: truncated, overlong, surrogate, too large). -/
def utf8Decode : Str → Option (List Nat)
  | [] => some []
  | b0 :: r0 =>
    if b0 < 0x80 then (utf8Decode r0).map (b0 :: ·)
    else if b0 < 0xc2 then none
    else if b0 < 0xe0 then
      match r0 with
      | b1 :: r1 =>
        if isCont b1 then (utf8Decode r1).map (((b0 - 0xc0) * 0x40 + (b1 - 0x80)) :: ·) else none
      | _ => none
    else if b0 < 0xf0 then
      match r0 with
      | b1 :: b2 :: r2 =>
        let c := (b0 - 0xe0) * 0x1000 + (b1 - 0x80) * 0x40 + (b2 - 0x80)
        if isCont b1 && isCont b2 && decide (0x800 ≤ c) && isScalar c then
          (utf8Decode r2).map (c :: ·)
        else none
      | _ => none
    else if b0 < 0xf5 then
      match r0 with
      | b1 :: b2 :: b3 :: r3 =>
        let c := (b0 - 0xf0) * 0x40000 + (b1 - 0x80) * 0x1000 + (b2 - 0x80) * 0x40 + (b3 - 0x80)
        if isCont b1 && isCont b2 && isCont b3 && decide (0x10000 ≤ c) && isScalar c then
          (utf8Decode r3).map (c :: ·)
        else none
      | _ => none
    else none

/-- `u16conv.to_bytes` -/
def toBytes (s : U16Str) : Res Str :=
  match utf16Decode s with
  | some cs => .ok (cs.flatMap utf8EncodeOne)
  | none => .throw .rangeError

/-- `u16conv.from_bytes` -/
def fromBytes (s : Str) : Res U16Str :=
  match utf8Decode s with
  | some cs => .ok (cs.flatMap utf16EncodeOne)
  | none => .throw .rangeError

end Thpronun
