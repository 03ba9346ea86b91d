import Verif.Spec.Syl
import Mathlib.Data.List.Forall2

/-! # The notation of dictionary data

A dictionary entry is a list of alternatives separated by semicolons, an alternative is a list of syllables separated by
commas, and a syllable is a code of five characters (initial, cluster, vowel, final, tone) that may be followed by `@`
and the position where it ends. -/

namespace Thpronun.Spec

/-- The text starts with the number `n`: white space, optional sign, digits. -/
def NumberIs (t : Str) (n : Int) : Prop :=
  ∃ ws sign ds rest, t = ws ++ sign ++ ds ++ rest ∧
    (∀ b ∈ ws, b = 32 ∨ (9 ≤ b ∧ b ≤ 13)) ∧ (sign = [] ∨ sign = b!"-" ∨ sign = b!"+") ∧
    ds ≠ [] ∧ (∀ b ∈ ds, 48 ≤ b ∧ b ≤ 57) ∧ (∀ b ∈ rest.head?, ¬ (48 ≤ b ∧ b ≤ 57)) ∧
    n = (if sign = b!"-" then -(decValue ds : Int) else decValue ds) ∧ IsInt n

/-- Codes of initial sounds. -/
def initialCodes : List (Nat × InitConsSound) :=
  (b!"*kcgjJydtTnbpPfmrlwsh?").zip
    [.INVALID, .KA, .KHA, .NGA, .JA, .CHA, .YA, .DA, .TA, .THA, .NA, .BA, .PA, .PHA, .FA, .MA, .RA, .LA, .WA, .SA, .HA, .A]

/-- Codes of final sounds. -/
def finalCodes : List (Nat × EndConsClass) :=
  (b!"_ktpgnmyw").zip [.NONE, .KOK, .KOT, .KOP, .KONG, .KON, .KOM, .KOEY, .KOEW]

/-- Codes of tones. -/
def toneCodes : List (Nat × Tone) := (b!"*01234").zip [.INVALID, .SAMAN, .EK, .THO, .TRI, .CHATTAWA]

/-- A byte as a signed character. -/
def charValue (c : Nat) : Int := if c < 128 then c else (c : Int) - 256

/-- `desc` describes the syllable `s`; `dflt` is its end position if none is given. -/
structure SylIs (desc : Str) (dflt : Int) (s : Syl) : Prop where
  literal : s.literal = []
  initial : ∃ c, desc[0]? = some c ∧ (c, s.iCons1) ∈ initialCodes
  cluster : ∃ c, desc[1]? = some c ∧ s.iCons2 = charValue c
  vowel : ∃ c, desc[2]? = some c ∧ s.vowel = charValue c
  final : ∃ c, desc[3]? = some c ∧ (c, s.eCons) ∈ finalCodes
  tone : ∃ c, desc[4]? = some c ∧ (c, s.tone) ∈ toneCodes
  /-- A lone `@` at the end counts as no position, and so does anything after the five codes but `@`. -/
  pos : if 6 < desc.length ∧ desc[5]? = some ch!"@" then NumberIs (desc.drop 6) s.endPos else s.endPos = dflt

/-- `data` describes the alternatives `strs`. -/
def DataIs (data : Str) (strs : List (List Syl)) : Prop :=
  ∃ parts : List (List Str), parts ≠ [] ∧ data = joinWith ch!";" (parts.map (joinWith ch!",")) ∧
    (∀ ps ∈ parts, ps ≠ [] ∧ ∀ d ∈ ps, ch!"," ∉ d ∧ ch!";" ∉ d) ∧
    List.Forall₂ (List.Forall₂ fun d s => SylIs d (-1) s) parts strs

end Thpronun.Spec
