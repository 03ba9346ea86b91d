import Verif.Spec.Used
import Verif.Lemmas.Route

/-! # Lemmas on entries of the dictionary and their words -/

namespace Thpronun
open Res Spec DAG

theorem movedEnd_zero (e : Int) : movedEnd 0 e = e := by
  unfold movedEnd
  split <;> simp

theorem within_iff {str : List Syl} {n a b : Int} {x : Syl} :
    (∃ e ∈ wordEdges 0 n str, e.key = a ∧ e.target = b ∧ ceq e.val x = true) ↔ StepOf n str a b x := by
  induction str generalizing n with
  | nil => exact ⟨fun ⟨e, h, _⟩ => (nomatch h), fun h => h.elim⟩
  | cons y ys ih =>
    have hw : wordEdges 0 n (y :: ys) = ⟨n, y.endPos, y⟩ :: wordEdges 0 y.endPos ys := by
      conv_lhs => unfold wordEdges
      rw [movedEnd_zero]
    unfold StepOf
    rw [← ih, hw]
    constructor
    · rintro ⟨e, he, h⟩
      rcases List.mem_cons.mp he with rfl | he
      · exact .inl ⟨h.1.symm, h.2.1.symm, h.2.2⟩
      · exact .inr ⟨e, he, h⟩
    · rintro (⟨rfl, rfl, h⟩ | ⟨e, he, h⟩)
      · exact ⟨_, List.mem_cons_self .., rfl, rfl, h⟩
      · exact ⟨e, List.mem_cons_of_mem _ he, h⟩

theorem within_route {E : Int → Int → Syl → Prop} {str : List Syl} {n q : Int} (hf : Forward n q str)
    (h : ∀ a b x, StepOf n str a b x → E a b x) : Route E n q str := by
  induction str generalizing n with
  | nil => exact hf
  | cons y ys ih =>
    exact ⟨h _ _ _ (.inl ⟨rfl, rfl, LawfulCppEq.refl y⟩), ih hf.2 fun a b x hx => h a b x (.inr hx)⟩

theorem within_place {str : List Syl} {n q a b : Int} {x : Syl} (hf : Forward n q str) (h : StepOf n str a b x) : place n ≤ place a := by
  induction str generalizing n with
  | nil => exact h.elim
  | cons y ys ih =>
    rcases h with ⟨rfl, -⟩ | h
    · exact Int.le_refl _
    · have := ih hf.2 h
      have := hf.1
      omega

theorem forward_le {str : List Syl} {n q : Int} (hf : Forward n q str) : place n ≤ place q := by
  induction str generalizing n with
  | nil => obtain rfl : n = q := hf; exact Int.le_refl _
  | cons y ys ih => have := ih hf.2; have := hf.1; omega

/-- Along one pronunciation there is only one way. -/
theorem route_within {str s : List Syl} {n q : Int} (hf : Forward n q str) {E : Int → Int → Syl → Prop}
    (hE : ∀ a b x, E a b x → place n ≤ place a → StepOf n str a b x) (h : Route E n q s) : SamePron s str := by
  induction s generalizing n str with
  | nil =>
    obtain rfl : n = q := h
    cases str with
    | nil => exact .nil
    | cons y ys =>
      have := forward_le hf.2
      have := hf.1
      omega
  | cons x s ih =>
    obtain ⟨h1, h2⟩ := h
    have hw := hE _ _ _ h1 (Int.le_refl _)
    cases str with
    | nil => exact hw.elim
    | cons y ys =>
      rcases hw with ⟨-, e, hc⟩ | hw
      · refine .cons ⟨LawfulCppEq.symm hc, e⟩ (ih (n := x.endPos) (by rw [e]; exact hf.2) (fun a b z hz hp => ?_) h2)
        rw [e] at hp ⊢
        rcases hE a b z hz (by have := hf.1; omega) with ⟨rfl, -⟩ | hk
        · have := hf.1; omega
        · exact hk
      · have := within_place hf.2 hw
        have := hf.1
        omega

variable {ct : CType} {w : U16Str} {look : List Nat → Option Str} {brk : List Int}

theorem rule_before {c c1 : Config} (h : Rule ct w look brk c c1) : c.pos < w.length := by
  cases h with
  | other h => exact Nat.lt_of_lt_of_le h.1 h.2.1
  | word h => exact Nat.lt_of_lt_of_le h.1 h.2.1
  | abbr h => exact Nat.lt_of_lt_of_le h.1 h.2.1
  | syl h => exact Nat.lt_of_lt_of_le h.1 h.2.1
  | dot h => exact Nat.lt_of_lt_of_le h.1 h.2.1

/-- Before a text that is a word of the dictionary as a whole, and no shorter one is taken, only its entry applies. -/
theorem whole_deriv (ht : TokenTo ct w brk 0 w.length) {data : Str} (hl : look w = some data) {strs : List (List Syl)}
    (hd : DataIs data strs) (hs : ∀ m data, WordAt ct w look 0 w.length m data → m = w.length) {c : Config}
    (h : RuleDeriv ct w look brk c) : c = ⟨0, false, []⟩ ∨ ∃ str ∈ strs, c = ⟨w.length, false, wordEdges 0 0 str⟩ := by
  have hw : WordAt ct w look 0 w.length w.length data :=
    ⟨ht.1, Nat.le_refl _, by unfold piece; simpa using hl, Nat.le_refl _, .inl rfl⟩
  induction h with
  | refl => exact .inl rfl
  | tail _ h ih =>
    rcases ih with rfl | ⟨str, -, rfl⟩
    · refine .inr ?_
      have tok : ∀ {t}, TokenTo ct w brk 0 t → t = w.length := fun h => (tokenTo_iff.mp h).unique (tokenTo_iff.mp ht)
      cases h with
      | other h => exact absurd (ht.2.2.1 0 (Nat.le_refl _) ht.1) (h.2.2.1 0 (Nat.le_refl _) h.1)
      | @word p l es t q data' strs' str h1 h2 h3 h4 =>
        obtain rfl := tok h1
        obtain rfl := hs _ _ h2
        obtain rfl : data' = data := Option.some.inj (by rw [← h2.2.2.1, ← hw.2.2.1])
        obtain rfl : strs' = strs := by
          have a := (makeSylStrings_iff _ _).mpr h3
          rw [(makeSylStrings_iff _ _).mpr hd] at a
          cases a
          rfl
        exact ⟨str, h4, by rw [List.nil_append]; rfl⟩
      | abbr h1 h2 => obtain rfl := tok h1; exact absurd hw (h2 _ _)
      | syl h1 h2 => obtain rfl := tok h1; exact absurd hw (h2 _ _)
      | dot h1 h2 => obtain rfl := tok h1; exact absurd hw (h2 _ _)
    · exact absurd (rule_before h) (Nat.lt_irrefl _)

theorem whole_edges (ht : TokenTo ct w brk 0 w.length) {data : Str} (hl : look w = some data) {strs : List (List Syl)}
    (hd : DataIs data strs) (hs : ∀ m data, WordAt ct w look 0 w.length m data → m = w.length) (a b : Int) (x : Syl) :
    ReadEdge ct w look brk a b x ↔ StepOfOne strs a b x := by
  have hw : WordAt ct w look 0 w.length w.length data :=
    ⟨ht.1, Nat.le_refl _, by unfold piece; simpa using hl, Nat.le_refl _, .inl rfl⟩
  constructor
  · rintro ⟨es, ⟨c, h1, h2, rfl⟩, h3⟩
    rcases whole_deriv ht hl hd hs h1 with rfl | ⟨str, hm, rfl⟩
    · have := ht.1
      dsimp only at h2
      omega
    · exact ⟨str, hm, within_iff.mp h3⟩
  · rintro ⟨str, hm, h⟩
    exact ⟨_, ⟨_, .single (.word ht hw hd hm), Nat.le_refl _, List.nil_append _⟩, within_iff.mpr h⟩

end Thpronun
