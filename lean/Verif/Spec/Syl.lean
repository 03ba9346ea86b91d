import Verif.Model.Syl

/-! # Valid syllables -/

namespace Thpronun.Spec

/-- The vowels of the syllable notation (README: short and long forms). -/
def vowels : List Int := (b!"aAiIvVuUeExXyYzZtToOcCwW").map fun (n : Nat) => (n : Int)

/-- The possible second consonants of a cluster: none, r, l, w. -/
def clusters : List Int := (b!"_rlw").map fun (n : Nat) => (n : Int)

/-- A proper (non-literal) syllable: every component is one of the language's. -/
structure ValidSyl (s : Syl) : Prop where
  literal : s.literal = []
  iCons1 : s.iCons1 ≠ .INVALID
  iCons2 : s.iCons2 ∈ clusters
  vowel : s.vowel ∈ vowels
  tone : s.tone ≠ .INVALID

/-- A value of the C++ type `int`. -/
def IsInt (i : Int) : Prop := -2147483648 ≤ i ∧ i ≤ 2147483647

instance (s) : Decidable (ValidSyl s) :=
  decidable_of_iff (s.literal = [] ∧ s.iCons1 ≠ .INVALID ∧ s.iCons2 ∈ clusters ∧ s.vowel ∈ vowels ∧
    s.tone ≠ .INVALID) ⟨fun ⟨a, b, c, d, e⟩ => ⟨a, b, c, d, e⟩, fun ⟨a, b, c, d, e⟩ => ⟨a, b, c, d, e⟩⟩

instance (i) : Decidable (IsInt i) := by unfold IsInt; infer_instance

end Thpronun.Spec

namespace Thpronun.Spec

/-- Texts joined by a separator. -/
def joinWith (sep : Nat) : List Str → Str
  | [] => []
  | [a] => a
  | a :: b :: r => a ++ sep :: joinWith sep (b :: r)

/-- The value of a string of decimal digits. -/
def decValue (ds : Str) : Nat := ds.foldl (fun acc b => acc * 10 + (b - 48)) 0

/-- A text that starts with a number fitting in an `int`: white space, optional sign, digits. -/
def IsNumberText (t : Str) : Prop :=
  ∃ ws sign ds rest, t = ws ++ sign ++ ds ++ rest ∧
    (∀ b ∈ ws, b = 32 ∨ (9 ≤ b ∧ b ≤ 13)) ∧ (sign = [] ∨ sign = b!"-" ∨ sign = b!"+") ∧
    ds ≠ [] ∧ (∀ b ∈ ds, 48 ≤ b ∧ b ≤ 57) ∧ (∀ b ∈ rest.head?, ¬ (48 ≤ b ∧ b ≤ 57)) ∧
    IsInt (if sign = b!"-" then -(decValue ds : Int) else decValue ds)

/-- A description with good initial, final and tone codes and a number after `@`, if any. -/
def GoodDesc (desc : Str) : Prop :=
  5 ≤ desc.length ∧
  (∃ c ∈ desc[0]?, c ∈ b!"*kcgjJydtTnbpPfmrlwsh?") ∧
  (∃ c ∈ desc[3]?, c ∈ b!"_ktpgnmyw") ∧
  (∃ c ∈ desc[4]?, c ∈ b!"*01234") ∧
  (6 < desc.length → desc[5]? = some ch!"@" → IsNumberText (desc.drop 6))

/-- Valid syllables of a string, all with `int` end positions. -/
def ValidStr (l : List Syl) : Prop := l ≠ [] ∧ ∀ s ∈ l, ValidSyl s ∧ IsInt s.endPos

/-- The encoded position of the node between a pre-syllable and the rest of a syllable spanning
`b … e` (README: minus a hundred times the beginning plus the end). -/
def spanPos (b e : Int) : Int := -(100 * b + e)

end Thpronun.Spec
