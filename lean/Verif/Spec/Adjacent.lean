import Verif.Spec.Reading

/-! # Which Thai characters can stand side by side

A table of the characters that can follow each other in a word that has a pronunciation, by letters alone. -/

namespace Thpronun.Spec

/-- The consonants. -/
def IsCons (c : Nat) : Prop := ch!"ก" ≤ c ∧ c ≤ ch!"ฮ" ∧ c ≠ ch!"ฤ" ∧ c ≠ ch!"ฦ"

/-- The tone marks. -/
def IsMark (c : Nat) : Prop := ch!"่" ≤ c ∧ c ≤ ch!"๋"

/-- The vowels written before the consonant. -/
def IsLead (c : Nat) : Prop := ch!"เ" ≤ c ∧ c ≤ ch!"ไ"

/-- The characters with which a syllable or an abbreviation can begin, and the period. -/
def Begins (c : Nat) : Prop := IsCons c ∨ IsLead c ∨ c ∈ u!"ฤฦ."

/-- The character `b` can stand after `a`. -/
def Follows (a b : Nat) : Prop :=
  (b = ch!"ๅ" ∧ a ∈ u!"ฤฦ") ∨
  (b = ch!"า" ∧ (IsCons a ∨ a ∈ u!"ฤฦ" ∨ IsMark a)) ∨
  (b = ch!"ะ" ∧ (IsCons a ∨ a ∈ u!"ฤา" ∨ IsMark a)) ∨
  (b ∈ u!"ำ็" ∧ (IsCons a ∨ a = ch!"ฤ" ∨ IsMark a)) ∨
  (b ∈ u!"ัิีึืุู" ∧ (IsCons a ∨ a = ch!"ฤ")) ∨
  (IsMark b ∧ (IsCons a ∨ a = ch!"ฤ" ∨ a ∈ u!"ัิีึืุู")) ∨
  (b = ch!"์" ∧ (IsCons a ∨ a ∈ u!"ิุ")) ∨
  (IsCons b ∧ (a = ch!"ั" → b ∉ u!"หอฮ") ∧ (a ∈ u!"ื็" → b ∉ u!"หฮ")) ∨
  (IsLead b ∧ a ∉ u!"ฦั็" ∧ ¬ IsLead a) ∨
  (b ∈ u!"ฤฦ." ∧ a ∉ u!"ฦัื็" ∧ ¬ IsLead a)

/-- A word can end with `a`. -/
def Ends (a : Nat) : Prop := a ∉ u!"ั็" ∧ ¬ IsLead a

instance (c) : Decidable (IsCons c) := by unfold IsCons; infer_instance
instance (c) : Decidable (IsMark c) := by unfold IsMark; infer_instance
instance (c) : Decidable (IsLead c) := by unfold IsLead; infer_instance
instance (c) : Decidable (Begins c) := by unfold Begins; infer_instance
instance (a b) : Decidable (Follows a b) := by unfold Follows; infer_instance
instance (a) : Decidable (Ends a) := by unfold Ends; infer_instance

/-- The characters before and at `k` are in the same dictionary word. -/
def InsideWord (w : U16Str) (look : List Nat → Option Str) (k : Nat) : Prop :=
  ∃ p q, p < k ∧ k < q ∧ q ≤ w.length ∧ look (piece w p q) ≠ none

/-- A dictionary word ends before `k`. -/
def AfterWord (w : U16Str) (look : List Nat → Option Str) (k : Nat) : Prop :=
  ∃ p, p < k ∧ k ≤ w.length ∧ look (piece w p k) ≠ none

/-- A dictionary word begins at `k`. -/
def AtWord (w : U16Str) (look : List Nat → Option Str) (k : Nat) : Prop :=
  ∃ q, k < q ∧ q ≤ w.length ∧ look (piece w k q) ≠ none

/-- The characters `a` and `b` stand side by side in `w`. -/
def SideBySide (w : U16Str) (a b : Nat) : Prop := ∃ k : Nat, w[k]? = some a ∧ w[k + 1]? = some b

end Thpronun.Spec
