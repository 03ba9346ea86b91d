import Mathlib.Data.Prod.Lex
import Mathlib.Data.Sum.Order
import Mathlib.Data.List.Lex
import Mathlib.Data.List.Forall2
import Mathlib.Order.Basic
import Verif.Model.SylString

/-! # The orders of `Syl` and `SylString` as linear orders of keys -/

namespace Thpronun

abbrev SylKey := (List ℕ ×ₗ ℤ) ⊕ₗ (ℕ ×ₗ (ℤ ×ₗ (ℤ ×ₗ (ℕ ×ₗ (ℕ ×ₗ ℤ)))))

/-- The sort key of a syllable: literals first, by text; then components; the end position last. -/
def Syl.key (s : Syl) : SylKey :=
  if s.isLiteral then Sum.inlₗ (toLex (s.literal, s.endPos))
  else Sum.inrₗ (toLex (s.iCons1.ord, toLex (s.iCons2, toLex (s.vowel, toLex (s.eCons.ord,
    toLex (s.tone.ord, s.endPos))))))

theorem u16lt_iff (a b : U16Str) : Syl.u16lt a b = true ↔ a < b := by
  induction a generalizing b with
  | nil => cases b <;> simp [Syl.u16lt]
  | cons x xs ih =>
    cases b with
    | nil => simp [Syl.u16lt]
    | cons y ys =>
      rw [Syl.u16lt, List.cons_lt_cons_iff]
      split
      · simp_all
      · split
        · rename_i h1 h2
          simp [h1, Nat.ne_of_gt h2]
        · rename_i h1 h2
          have : x = y := by omega
          simp [this, ih]

theorem InitConsSound.ord_inj {a b : InitConsSound} : a.ord = b.ord ↔ a = b := by
  constructor
  · cases a <;> cases b <;> simp [InitConsSound.ord]
  · rintro rfl; rfl

theorem EndConsClass.ord_inj {a b : EndConsClass} : a.ord = b.ord ↔ a = b := by
  constructor
  · cases a <;> cases b <;> simp [EndConsClass.ord]
  · rintro rfl; rfl

theorem Tone.ord_inj {a b : Tone} : a.ord = b.ord ↔ a = b := by
  constructor
  · cases a <;> cases b <;> simp [Tone.ord]
  · rintro rfl; rfl

theorem ite_lex_iff {α} [LinearOrder α] (x y : α) (b : Bool) :
    ((if x < y then true else if x > y then false else b) = true) ↔ x < y ∨ (x = y ∧ b = true) := by
  rcases lt_trichotomy x y with h | h | h
  · simp [h]
  · simp [h]
  · simp [h, not_lt_of_gt h, (ne_of_gt h)]

theorem Syl.lt_iff (a b : Syl) : Syl.lt a b = true ↔ a.key < b.key := by
  unfold Syl.lt Syl.key
  by_cases ha : a.isLiteral <;> by_cases hb : b.isLiteral
  · simp only [ha, hb, if_true, Sum.Lex.inl_lt_inl_iff, Prod.Lex.toLex_lt_toLex]
    by_cases h1 : u16lt a.literal b.literal
    · simp [h1, (u16lt_iff _ _).mp h1]
    · by_cases h2 : u16lt b.literal a.literal
      · have := (u16lt_iff _ _).mp h2
        simp [h1, h2, not_lt_of_gt this, ne_of_gt this]
      · have h1' := (u16lt_iff _ _).not.mp h1
        have h2' := (u16lt_iff _ _).not.mp h2
        have := le_antisymm (not_lt.mp h2') (not_lt.mp h1')
        rw [if_neg h1, if_neg h2]
        simp [this]
  · simp [ha, hb]
  · simp [ha, hb]
  · simp only [ha, hb, Bool.false_eq_true, if_false, Sum.Lex.inr_lt_inr_iff,
      Prod.Lex.toLex_lt_toLex, ite_lex_iff, decide_eq_true_eq]

theorem Syl.gt_eq (a b : Syl) : Syl.gt a b = Syl.lt b a := by
  unfold Syl.gt Syl.lt
  by_cases ha : a.isLiteral <;> by_cases hb : b.isLiteral <;> simp [ha, hb]

theorem Syl.key_eq_iff (a b : Syl) : a.key = b.key ↔ (Syl.eq a b = true ∧ a.endPos = b.endPos) := by
  unfold Syl.key Syl.eq
  by_cases ha : a.isLiteral <;> by_cases hb : b.isLiteral
  · simp [ha, hb]
  · simp [ha, hb]
  · simp [ha, hb]
  · simp [ha, hb, InitConsSound.ord_inj, EndConsClass.ord_inj, Tone.ord_inj, and_assoc]

theorem Syl.eq_iff (a b : Syl) : Syl.eq a b = true ↔
    a.literal = b.literal ∧ (a.isLiteral = false → a.iCons1 = b.iCons1 ∧ a.iCons2 = b.iCons2 ∧
      a.vowel = b.vowel ∧ a.eCons = b.eCons ∧ a.tone = b.tone) := by
  unfold Syl.eq Syl.isLiteral
  by_cases ha : a.literal = [] <;> by_cases hb : b.literal = []
  · simp [ha, hb, and_assoc]
  · simp [ha, hb, Ne.symm hb]
  · simp [ha, hb]
  · simp [ha, hb]

theorem Syl.eq_refl (a : Syl) : Syl.eq a a = true := by simp [Syl.eq_iff]

theorem Syl.eq_symm {a b : Syl} (h : Syl.eq a b = true) : Syl.eq b a = true := by
  rw [Syl.eq_iff] at *
  obtain ⟨h1, h2⟩ := h
  refine ⟨h1.symm, fun hb => ?_⟩
  have := h2 (by simpa [Syl.isLiteral, h1] using hb)
  simp [this]

theorem Syl.eq_trans {a b c : Syl} (h : Syl.eq a b = true) (h' : Syl.eq b c = true) :
    Syl.eq a c = true := by
  rw [Syl.eq_iff] at *
  obtain ⟨h1, h2⟩ := h
  obtain ⟨h3, h4⟩ := h'
  refine ⟨h1.trans h3, fun hb => ?_⟩
  have := h2 hb
  have := h4 (by simpa [Syl.isLiteral, h1] using hb)
  simp_all

namespace SylString

theorem gt_eq (a b : SylString) : SylString.gt a b = SylString.lt b a := by
  induction a generalizing b with
  | nil => cases b <;> simp [gt, lt]
  | cons x xs ih =>
    cases b with
    | nil => simp [gt, lt]
    | cons y ys => simp [gt, lt, Syl.gt_eq, ih]

theorem lt_iff (a b : SylString) : SylString.lt a b = true ↔ a.map Syl.key < b.map Syl.key := by
  induction a generalizing b with
  | nil => cases b <;> simp [lt]
  | cons x xs ih =>
    cases b with
    | nil => simp [lt]
    | cons y ys =>
      rw [lt, List.map_cons, List.map_cons, List.cons_lt_cons_iff, Syl.gt_eq]
      rcases lt_trichotomy x.key y.key with h | h | h
      · simp [(Syl.lt_iff x y).mpr h, h]
      · have h1 : Syl.lt x y = false := by
          rw [← Bool.not_eq_true, Syl.lt_iff, h]; exact lt_irrefl _
        have h2 : Syl.lt y x = false := by
          rw [← Bool.not_eq_true, Syl.lt_iff, h]; exact lt_irrefl _
        simp [h1, h2, ih, h]
      · have h1 : Syl.lt x y = false := by
          rw [← Bool.not_eq_true, Syl.lt_iff]; exact not_lt_of_gt h
        simp [h1, (Syl.lt_iff y x).mpr h, not_lt_of_gt h, ne_of_gt h]

theorem eq_iff (a b : SylString) :
    SylString.eq a b = true ↔ List.Forall₂ (fun x y => Syl.eq x y = true) a b := by
  induction a generalizing b with
  | nil => cases b <;> simp [SylString.eq, List.forall₂_nil_left_iff]
  | cons x xs ih =>
    cases b with
    | nil => simp [SylString.eq, List.forall₂_nil_right_iff]
    | cons y ys =>
      simp only [SylString.eq, Syl.ne, List.forall₂_cons, ← ih]
      by_cases h : Syl.eq x y = true <;> simp [h]

end SylString

end Thpronun
