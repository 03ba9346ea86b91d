import Verif.Spec.Reading
import Mathlib.Data.List.Forall2

/-! # Texts put together -/

namespace Thpronun.Spec

/-- The edge of a text that stands `n` positions later in another text. -/
def later (n : Nat) (e : Entry Syl) : Entry Syl :=
  ⟨movedEnd n e.key, movedEnd n e.target, { e.val with endPos := movedEnd n e.val.endPos }⟩

/-- A Thai letter or sign, or a period. -/
def IsText (ct : CType) (c : Nat) : Prop :=
  ct.isCons c = true ∨ ct.isVowel c = true ∨ ct.isTone c = true ∨ c ∈ u!"็์."

/-- The text `u` (with the word breaks `bu`) before the text `v` (with `bv`) is read by itself: `a` and `b` are the
characters on both sides. -/
structure Cut (ct : CType) (u v : U16Str) (bu bv : List Int) (a b : Nat) : Prop where
  last : u.getLast? = some a
  first : v.head? = some b
  /-- Thai on one side only, or a word break. -/
  sep : IsText ct a ∧ ¬ IsText ct b ∨ ¬ IsText ct a ∧ IsText ct b ∨ IsText ct a ∧ IsText ct b ∧ (u.length : Int) ∈ bu
  left : ∀ x ∈ bu, x ≤ u.length
  right : ∀ x ∈ bv, 0 ≤ x
  /-- No leading vowel before a consonant: it would take the consonant over the break (`C41_false`). -/
  lead : IsText ct a → ct.isLdVowel a = true → a ≠ ch!"เ" → ct.isCons b = false
  /-- Abbreviations stand at the beginning of the text, after a space or after a period only. -/
  abbr : IsText ct b → a = ch!" " ∨ a = ch!"." ∨ ∀ t e, TokenTo ct v bv 0 t → ¬ IsAbbr ct v 0 t e

/-- The word breaks of the two texts put together. -/
def joinBreaks (u : U16Str) (bu bv : List Int) : List Int := bu ++ bv.map (· + (u.length : Int))

/-! ## Pronunciations -/

/-- Equal syllables (in the sense of `==`) that end at the same node. -/
def SameSyl (x y : Syl) : Prop := ceq x y = true ∧ x.endPos = y.endPos

/-- The same pronunciation. -/
abbrev SamePron : List Syl → List Syl → Prop := List.Forall₂ SameSyl

/-- The syllables `n` positions later. -/
def laterSyls (n : Nat) (s : List Syl) : List Syl := s.map fun x => { x with endPos := movedEnd n x.endPos }

/-- A way along the edges `E` from `a` to `b`. -/
def Route (E : Int → Int → Syl → Prop) (a b : Int) : List Syl → Prop
  | [] => a = b
  | s :: ss => E a s.endPos s ∧ Route E s.endPos b ss

/-- An edge of a reading. -/
def ReadEdge (ct : CType) (w : U16Str) (look : List Nat → Option Str) (brk : List Int) (a b : Int) (x : Syl) : Prop :=
  ∃ es, RuleReading ct w look brk es ∧ ∃ e ∈ es, e.key = a ∧ e.target = b ∧ ceq e.val x = true

/-- The same pronunciations, each as often, in any order. -/
def SameProns (l l' : List (List Syl)) : Prop := ∃ m, l.Perm m ∧ List.Forall₂ SamePron m l'

/-- Every pronunciation of the one followed by every one of the other. -/
def product (l l' : List (List Syl)) : List (List Syl) := l.flatMap fun x => l'.map fun y => x ++ y

end Thpronun.Spec
