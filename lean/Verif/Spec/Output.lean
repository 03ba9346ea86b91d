import Verif.Spec.Syl
import Verif.Spec.Tone
import Verif.Model.Utf

/-! # What the outputs are supposed to look like -/

namespace Thpronun.Spec

/-- A blank between words: nothing in any component. -/
def IsBlank (s : Syl) : Prop :=
  s.literal = [] ∧ s.iCons1 = .INVALID ∧ s.iCons2 = ch!"_" ∧ s.vowel = ch!"*" ∧ s.eCons = .NONE ∧
    s.tone = .INVALID

instance (s) : Decidable (IsBlank s) := by unfold IsBlank; infer_instance

/-- The blank-free groups of a pronunciation, in order (one more than there are blanks). -/
def groups : List Syl → List (List Syl)
  | [] => [[]]
  | s :: r =>
    if IsBlank s then [] :: groups r
    else match groups r with
      | [] => [[s]]
      | g :: gs => (s :: g) :: gs

/-! ## A reader for JSON strings and arrays (RFC 8259)

Objects, numbers, `true`, `false` and `null` are not read; `\u` escapes of unpaired surrogates are refused. -/

inductive J where
  | str (s : Str)
  | arr (l : List J)

def skipWs : Str → Str
  | [] => []
  | c :: r => if c = 32 ∨ c = 9 ∨ c = 10 ∨ c = 13 then skipWs r else c :: r

/-- The character meant by `\c`. -/
def unescape (c : Byte) : Option Byte :=
  if c = ch!"\"" ∨ c = ch!"\\" ∨ c = ch!"/" then some c
  else if c = ch!"b" then some 8
  else if c = ch!"f" then some 12
  else if c = ch!"n" then some 10
  else if c = ch!"r" then some 13
  else if c = ch!"t" then some 9
  else none

/-- A hexadecimal digit. -/
def hexDigit (c : Byte) : Option Nat :=
  if ch!"0" ≤ c ∧ c ≤ ch!"9" then some (c - ch!"0")
  else if ch!"a" ≤ c ∧ c ≤ ch!"f" then some (c - ch!"a" + 10)
  else if ch!"A" ≤ c ∧ c ≤ ch!"F" then some (c - ch!"A" + 10)
  else none

/-- Four hexadecimal digits. -/
def hex4 (a b c d : Byte) : Option Nat := do
  pure ((← hexDigit a) * 4096 + (← hexDigit b) * 256 + (← hexDigit c) * 16 + (← hexDigit d))

/-- The rest of a string after its opening quote, and what follows the closing quote. -/
def readString : Str → Option (Str × Str)
  | [] => none
  | c :: r =>
    if c = ch!"\"" then some ([], r)
    else if c < 32 then none
    else if c = ch!"\\" then
      match r with
      | [] => none
      | d :: r' =>
        if d = ch!"u" then
          match r' with
          | a1 :: a2 :: a3 :: a4 :: r1 =>
            match hex4 a1 a2 a3 a4 with
            | none => none
            | some u =>
              if u < 0xd800 ∨ 0xe000 ≤ u then
                match readString r1 with
                | some (s, t) => some (utf8EncodeOne u ++ s, t)
                | none => none
              else
                match r1 with
                | b :: u' :: b1 :: b2 :: b3 :: b4 :: r2 =>
                  match hex4 b1 b2 b3 b4 with
                  | none => none
                  | some l =>
                    if b = ch!"\\" ∧ u' = ch!"u" ∧ u < 0xdc00 ∧ 0xdc00 ≤ l ∧ l < 0xe000 then
                      match readString r2 with
                      | some (s, t) =>
                        some (utf8EncodeOne (0x10000 + (u - 0xd800) * 0x400 + (l - 0xdc00)) ++ s, t)
                      | none => none
                    else none
                | _ => none
          | _ => none
        else
          match unescape d, readString r' with
          | some e, some (s, t) => some (e :: s, t)
          | _, _ => none
    else
      match readString r with
      | some (s, t) => some (c :: s, t)
      | none => none

mutual
/-- One value at the beginning of the text, and the rest of the text. -/
def readValue : Nat → Str → Option (J × Str)
  | 0, _ => none
  | n + 1, t =>
    match skipWs t with
    | [] => none
    | c :: r =>
      if c = ch!"\"" then
        match readString r with
        | some (s, t') => some (.str s, t')
        | none => none
      else if c = ch!"[" then
        match skipWs r with
        | [] => none
        | d :: r' =>
          if d = ch!"]" then some (.arr [], r')
          else match readElems n (d :: r') with
            | some (l, t') => some (.arr l, t')
            | none => none
      else none
/-- The elements of an array, up to and including its closing bracket. -/
def readElems : Nat → Str → Option (List J × Str)
  | 0, _ => none
  | n + 1, t =>
    match readValue n t with
    | none => none
    | some (v, r) =>
      match skipWs r with
      | [] => none
      | c :: r' =>
        if c = ch!"]" then some ([v], r')
        else if c = ch!"," then
          match readElems n r' with
          | some (l, t') => some (v :: l, t')
          | none => none
        else none
end

/-- Read a whole text as one JSON value. -/
def readJson (t : Str) : Option J :=
  match readValue (2 * t.length + 1) t with
  | some (v, r) => if skipWs r = [] then some v else none
  | none => none

/-- A text that may stand between JSON quotes as it is. -/
def JsonSafe (t : Str) : Prop := ∀ b ∈ t, 32 ≤ b ∧ b ≠ ch!"\"" ∧ b ≠ ch!"\\"

instance (t) : Decidable (JsonSafe t) := by unfold JsonSafe; infer_instance

/-! ## Notations -/

/-- Well-formed UTF-16 text. -/
def GoodUtf16 (t : U16Str) : Prop := ∃ cs, utf16Decode t = some cs

instance (t) : Decidable (GoodUtf16 t) := by
  unfold GoodUtf16
  cases h : utf16Decode t with
  | none => exact isFalse (by simp)
  | some c => exact isTrue ⟨c, rfl⟩

/-- The short vowel of the same quality. -/
def shortOf (v : Int) : Int := if 65 ≤ v ∧ v ≤ 90 then
    (if v = ch!"A" then ch!"a" else if v = ch!"I" then ch!"i" else if v = ch!"V" then ch!"v"
     else if v = ch!"U" then ch!"u" else if v = ch!"E" then ch!"e" else if v = ch!"X" then ch!"x"
     else if v = ch!"Y" then ch!"y" else if v = ch!"Z" then ch!"z" else if v = ch!"T" then ch!"t"
     else if v = ch!"O" then ch!"o" else if v = ch!"C" then ch!"c" else ch!"w")
  else v

/-- Is the vowel short? -/
def isShort (v : Int) : Bool := decide (v ∈ (b!"aivuexyztocw").map fun (n : Nat) => (n : Int))

/-- The liquid consonants are one. -/
def mergeRL : InitConsSound → InitConsSound
  | .RA => .LA
  | i => i

/-- Royal Institute: a hyphen stands before a syllable that begins with a vowel (o ang), and before
one that begins with ng after a syllable without final consonant. -/
def needsHyphen (prev s : Syl) : Bool :=
  decide (s.iCons1 = .A) || (decide (s.iCons1 = .NGA) && decide (prev.eCons = .NONE))

/-- The text of a blank-free group, hyphens included. -/
def hyphenated (txt : Syl → Str) : List Syl → Str
  | [] => []
  | [s] => txt s
  | s :: s' :: r => txt s ++ (if needsHyphen s s' then b!"-" else []) ++ hyphenated txt (s' :: r)

/-! ## Thai respelling -/

/-- The class of a Thai consonant letter. -/
def classOfLetter (c : Nat) : Option Class3 :=
  if c ∈ u!"กจฎฏดตบปอ" then some .mid
  else if c ∈ u!"ขฃฉฐถผฝศษสห" then some .high
  else if c ∈ u!"คฅฆงชซฌญฑฒณทธนพฟภมยรลวฬฮ" then some .low
  else none

/-- The tone sign meant by a character. -/
def toneOfMark (c : Nat) : Option Tone :=
  if c = ch!"่" then some .EK
  else if c = ch!"้" then some .THO
  else if c = ch!"๊" then some .TRI
  else if c = ch!"๋" then some .CHATTAWA
  else none

/-- Final consonants k, t, p stop the breath. -/
def isStop : EndConsClass → Bool
  | .KOK | .KOT | .KOP => true
  | _ => false

/-- The tone with which a Thai spelling is read: class of its first consonant, first tone sign, and
the length and final consonant it denotes. -/
def readTone (letters : List Nat) (short : Bool) (final : EndConsClass) : Option Tone :=
  match letters.findSome? classOfLetter with
  | none => none
  | some cls =>
    let mark := (letters.findSome? toneOfMark).getD .SAMAN
    let dead := isStop final || (short && decide (final = .NONE))
    (toneTable.find? fun r => decide (r.1 = cls ∧ r.2.1 = kind dead short ∧ r.2.2.1 = mark)).map
      fun r => r.2.2.2

/-- The vowels ia, uea, oe have no short spelling before a final consonant. -/
def spelledShort (s : Syl) : Bool :=
  isShort s.vowel && !(decide (s.vowel ∈ (b!"yzw").map fun (n : Nat) => (n : Int)) && decide (s.eCons ≠ .NONE))

end Thpronun.Spec

namespace Thpronun.Spec

/-- The sound of an onset: a cluster on a silent initial sounds like the cluster's consonant. -/
def onset (s : Syl) : InitConsSound × Int :=
  if s.iCons1 = .A then
    if s.iCons2 = ch!"r" then (.RA, ch!"_")
    else if s.iCons2 = ch!"l" then (.LA, ch!"_")
    else if s.iCons2 = ch!"w" then (.WA, ch!"_")
    else (.A, ch!"_")
  else (s.iCons1, s.iCons2)

/-- First letter in upper case. -/
def upperFirst : Str → Str
  | [] => []
  | b :: r => (if b ∈ b!"abcdefghijklmnopqrstuvwxyz" then b - 32 else b) :: r

end Thpronun.Spec
