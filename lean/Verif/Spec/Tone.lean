import Verif.Model.ThCons

/-! # The Thai tone rules and consonant classes as taught in school -/

namespace Thpronun.Spec

/-- Kinds of syllables that the tone rules tell apart. -/
inductive Kind where
  | live | deadShort | deadLong
  deriving DecidableEq

/-- Consonant classes of the tone rules. -/
inductive Class3 where
  | mid | high | low
  deriving DecidableEq

/-- The tone table: class, kind of syllable, written mark (`SAMAN` = no mark), spoken tone.
Combinations that are not written in Thai are absent. -/
def toneTable : List (Class3 × Kind × Tone × Tone) := [
  (.mid, .live, .SAMAN, .SAMAN), (.mid, .live, .EK, .EK), (.mid, .live, .THO, .THO),
  (.mid, .live, .TRI, .TRI), (.mid, .live, .CHATTAWA, .CHATTAWA),
  (.mid, .deadShort, .SAMAN, .EK), (.mid, .deadShort, .THO, .THO), (.mid, .deadShort, .TRI, .TRI),
  (.mid, .deadShort, .CHATTAWA, .CHATTAWA),
  (.mid, .deadLong, .SAMAN, .EK), (.mid, .deadLong, .THO, .THO), (.mid, .deadLong, .TRI, .TRI),
  (.mid, .deadLong, .CHATTAWA, .CHATTAWA),
  (.high, .live, .SAMAN, .CHATTAWA), (.high, .live, .EK, .EK), (.high, .live, .THO, .THO),
  (.high, .deadShort, .SAMAN, .EK), (.high, .deadShort, .THO, .THO),
  (.high, .deadLong, .SAMAN, .EK), (.high, .deadLong, .THO, .THO),
  (.low, .live, .SAMAN, .SAMAN), (.low, .live, .EK, .THO), (.low, .live, .THO, .TRI),
  (.low, .deadShort, .SAMAN, .TRI), (.low, .deadShort, .EK, .THO), (.low, .deadShort, .THO, .TRI),
  (.low, .deadShort, .CHATTAWA, .CHATTAWA),
  (.low, .deadLong, .SAMAN, .THO), (.low, .deadLong, .EK, .THO), (.low, .deadLong, .THO, .TRI),
  (.low, .deadLong, .CHATTAWA, .CHATTAWA)]

def class3 : InitConsClass → Option Class3
  | .MID => some .mid
  | .HIGH => some .high
  | .LOWP | .LOWS => some .low
  | .INVALID => none

def kind (dead short : Bool) : Kind :=
  if dead then (if short then .deadShort else .deadLong) else .live

/-- The spoken tone prescribed by the table, if the combination is written in Thai. -/
def prescribed (cls : InitConsClass) (written : Tone) (dead short : Bool) : Option Tone :=
  match class3 cls with
  | none => none
  | some c =>
    (toneTable.find? fun r => decide (r.1 = c ∧ r.2.1 = kind dead short ∧ r.2.2.1 = written)).map
      fun r => r.2.2.2

/-- The letters of each class (low consonants: sonorants `LOWS`, paired ones `LOWP`). -/
def classLetters : InitConsClass → U16Str
  | .MID => u!"กจฎฏดตบปอ"
  | .HIGH => u!"ขฃฉฐถผฝศษสห"
  | .LOWS => u!"งญณนมยรลวฬ"
  | .LOWP => u!"คฅฆชซฌฑฒทธพฟภฮ"
  | .INVALID => []

/-- The letters of each final class (มาตราตัวสะกด). -/
def finalLetters : EndConsClass → U16Str
  | .KOK => u!"กขฃคฅฆ"
  | .KOT => u!"จฉชซฌฎฏฐฑฒดตถทธศษส"
  | .KOP => u!"บปผฝพฟภ"
  | .KONG => u!"ง"
  | .KON => u!"ญณนรลฬ"
  | .KOM => u!"ม"
  | .KOEY => u!"ย"
  | .KOEW => u!"ว"
  | .NONE => u!"หอฮ"

/-- The letters of each initial sound. -/
def soundLetters : InitConsSound → U16Str
  | .KA => u!"ก" | .KHA => u!"ขฃคฅฆ" | .NGA => u!"ง" | .JA => u!"จ" | .CHA => u!"ฉชฌ"
  | .YA => u!"ญย" | .DA => u!"ฎด" | .TA => u!"ฏต" | .THA => u!"ฐฑฒถทธ" | .NA => u!"ณน"
  | .BA => u!"บ" | .PA => u!"ป" | .PHA => u!"ผพภ" | .FA => u!"ฝฟ" | .MA => u!"ม" | .RA => u!"ร"
  | .LA => u!"ลฬ" | .WA => u!"ว" | .SA => u!"ซศษส" | .HA => u!"หฮ" | .A => u!"อ" | .INVALID => []

/-- A Thai consonant letter (ฤ and ฦ are vowel letters). -/
def IsConsonant (c : U16) : Prop := 0x0e01 ≤ c ∧ c ≤ 0x0e2e ∧ c ≠ 0x0e24 ∧ c ≠ 0x0e26

instance (c) : Decidable (IsConsonant c) := by unfold IsConsonant; infer_instance

end Thpronun.Spec
