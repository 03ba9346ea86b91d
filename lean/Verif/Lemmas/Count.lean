import Verif.Spec.Count
import Verif.Lemmas.Rules
import Verif.Lemmas.Shift

/-! # Syllables and characters: helper lemmas -/

namespace Thpronun
open Res Spec DAG

variable {ct : CType} {w : U16Str} {brk : List Int} {look : List Nat → Option Str}

theorem begun_nat (n : Nat) : begun (n : Int) = n := by unfold begun; rw [if_neg (by omega)]

theorem begun_span {p q : Nat} (h : p + 2 ≤ q) : (p : Int) < begun (spanPos p q) ∧ begun (spanPos p q) < q := by
  unfold begun spanPos
  rw [if_pos (by omega)]
  omega

theorem begun_moved (p : Nat) (e : Int) : begun (movedEnd p e) = begun e + p := by
  unfold begun movedEnd
  by_cases h : e < 0
  · rw [if_pos h, if_pos h, if_pos (by omega)]; omega
  · rw [if_neg h, if_neg h, if_neg (by omega)]

/-- A pre-syllable takes two consonants. -/
theorem spelled_two {t i : Nat} {l : Bool} {o : Onset} {r : Rime} (h : Spelled ct w t i l o r) (hp : o.pre ≠ none) :
    i + 2 ≤ r.stop := by
  have hon : ∀ i, OnsetAt ct w t i l o → i + 2 ≤ o.stop := by
    rintro i ⟨c, snd, cls, -, -, h | ⟨d, snd2, cls2, -, -, -, h⟩ | ⟨-, h⟩⟩
    · exact absurd (by rw [h]) hp
    · rcases h with ⟨_, _, -, -, -, h⟩ | ⟨-, -, -, h⟩ | ⟨-, -, h⟩ | h <;> rw [h]
    · rcases h with ⟨-, h⟩ | ⟨-, h | h⟩ | ⟨-, h⟩ | ⟨-, h⟩ | ⟨-, -, h⟩ | ⟨-, v, -, ⟨-, h⟩ | h⟩ <;> rw [h]
  obtain ⟨c, -, ⟨-, ⟨h1, -, h2⟩ | ⟨h, -⟩⟩ | ⟨-, -, h1, h2⟩ | ⟨-, -, h1, h2⟩ | ⟨-, h, -⟩⟩ := h
  · exact (hon _ h1).trans (consRime_ge h2)
  · obtain ⟨c, snd, cls, -, -, h⟩ := h
    rcases h with ⟨-, h, -⟩ | ⟨-, -, -, -, h, -⟩ | ⟨-, -, -, ⟨-, -, -, rfl⟩ | ⟨-, -, -, rfl⟩ | ⟨-, -, -, rfl⟩⟩ | ⟨-, -, -, rfl⟩
    · exact absurd (by rw [h]) hp
    · exact absurd (by rw [h]) hp
    all_goals simp
  · have := hon _ h1; have := eRime_ge h2; omega
  · have := hon _ h1; have := leadRime_ge h2; omega
  · exact absurd (by rw [h]) hp

/-- An edge between text positions, or one that begins a character. -/
def Steps (e : Entry Syl) : Prop := (0 ≤ e.key ∧ 0 ≤ e.target) ∨ begun e.key < begun e.target

theorem steps_word {p : Nat} {str : SylString} : ∀ {n m : Int}, begun n = begun m + p → Paced m str →
    ∀ e ∈ wordEdges p n str, Steps e := by
  induction str with
  | nil => intro n m _ _ e he; cases he
  | cons s ss ih =>
    intro n m hn hp e he
    rcases List.mem_cons.mp he with rfl | he
    · refine .inr ?_
      simp only [begun_moved, hn]
      have := hp.1
      omega
    · exact ih (begun_moved _ _) hp.2 e he

theorem steps_spelled {p t : Nat} {l : Bool} {o : Onset} {r : Rime} (h : Spelled ct w t p l o r) :
    ∀ e ∈ spelledEdges p o r, Steps e := by
  intro e he
  unfold spelledEdges at he
  cases hp : o.pre with
  | none =>
    rw [hp, List.mem_singleton] at he
    subst he
    exact .inl ⟨Int.natCast_nonneg _, Int.natCast_nonneg _⟩
  | some pre =>
    have hb := begun_span (spelled_two h (by rw [hp]; simp))
    rw [hp] at he
    simp only [List.mem_cons, List.not_mem_nil, or_false] at he
    rcases he with rfl | rfl
    · exact .inr (by simp only [begun_nat]; exact hb.1)
    · exact .inr (by simp only [begun_nat]; exact hb.2)

theorem steps_abbr {p q : Nat} {new : List (Entry Syl)} (h : AbbrNames w p q new) : ∀ e ∈ new, Steps e := by
  intro e he
  rcases h with ⟨-, rfl⟩ | ⟨-, cs, -, hl, h⟩
  · rw [List.mem_singleton] at he
    subst he
    exact .inl ⟨Int.natCast_nonneg _, Int.natCast_nonneg _⟩
  · obtain ⟨i, hi, rfl⟩ := List.mem_iff_getElem.mp he
    obtain ⟨h1, h2, -⟩ := h i cs[i] new[i] (List.getElem?_eq_getElem (by omega)) (List.getElem?_eq_getElem hi)
    refine .inl ⟨by omega, ?_⟩
    rw [h2]
    split <;> exact Int.natCast_nonneg _

theorem steps_stretch {p : Nat} {e : Entry Syl} (h : Steps e) : Steps (stretch p e) := by
  unfold stretch
  split
  · rename_i ht
    rcases h with h | h
    · exact .inl ⟨h.1, by simp only; omega⟩
    · refine .inr ?_
      rw [ht, begun_nat] at h
      have := begun_nat (p + 1)
      push_cast at this
      simp only [this]
      omega
  · exact h

theorem deriv_steps (hp : PacedLook look) {c : Config} (h : RuleDeriv ct w look brk c) : ∀ e ∈ c.edges, Steps e := by
  induction h with
  | refl => intro e he; cases he
  | tail _ h ih =>
    cases h with
    | other h =>
      intro e he
      rcases List.mem_append.mp he with he | he
      · exact ih e he
      · rw [List.mem_singleton] at he
        subst he
        exact .inl ⟨Int.natCast_nonneg _, Int.natCast_nonneg _⟩
    | word h1 h2 h3 h4 =>
      intro e he
      rcases List.mem_append.mp he with he | he
      · exact ih e he
      · exact steps_word (m := 0) (by rw [begun_nat]; simp [begun]) (hp _ _ _ h2.2.2.1 h3 _ h4) e he
    | abbr h1 h2 h3 h4 =>
      intro e he
      rcases List.mem_append.mp he with he | he
      · exact ih e he
      · exact steps_abbr h4 e he
    | syl h1 h2 h3 h4 =>
      intro e he
      rcases List.mem_append.mp he with he | he
      · exact ih e he
      · exact steps_spelled h4 e he
    | dot h1 h2 h3 h4 =>
      intro e he
      obtain ⟨x, hx, rfl⟩ := List.mem_map.mp he
      exact steps_stretch (ih x hx)

end Thpronun
