import Verif.Lemmas.Grammar
import Verif.Lemmas.Dag
import Verif.Lemmas.Dict
import Verif.Lemmas.Loop
import Verif.Spec.Parser
import Mathlib.Tactic.Ring

/-! # Tokens, dictionary search and abbreviations of the parser: helper lemmas -/

namespace Thpronun
open Res Spec

section
variable {ct : CType} {w : U16Str} {brk : List Int}

theorem spanPos_eq (p e : Nat) : preNode p e = spanPos p e := by
  simp only [preNode, spanPos]; ring

/-! ## Tokens -/

theorem token_iff {i : Nat} {c : Nat} (h : w[i]? = some c) :
    Token ct w i ↔ isThaiTokenChar ct c = true := by
  constructor
  · rintro ⟨c', h', ht⟩
    rw [h] at h'; cases h'; exact ht
  · exact fun ht => ⟨c, h, ht⟩

theorem Spec.Token.lt {i : Nat} (h : Token ct w i) : i < w.length := by
  obtain ⟨c, hc, -⟩ := h
  exact (List.getElem?_eq_some_iff.mp hc).1

instance (i : Nat) : Decidable (Token ct w i) :=
  match h : w[i]? with
  | none => isFalse (by rintro ⟨c, hc, -⟩; rw [h] at hc; cases hc)
  | some c => decidable_of_iff _ (token_iff h).symm

theorem stopLoop_ok {nb : Int} {t : Nat} : ∀ {rest : U16Str} {p : Nat}, rest = w.drop p → p ≤ w.length →
    stopLoop ct rest p nb = .ok t →
    p ≤ t ∧ t ≤ w.length ∧ ((t : Int) ≤ nb ∨ t = p) ∧ (∀ i, p ≤ i → i < t → Token ct w i) ∧
      (nb ≤ t ∨ (t < w.length ∧ ¬ Token ct w t))
  | [], p, hr, hp, h => by
    have hl : w.length ≤ p := List.drop_eq_nil_iff.mp hr.symm
    rw [stopLoop] at h
    by_cases hlt : (p : Int) < nb
    · rw [if_pos hlt] at h; cases h
    · rw [if_neg hlt] at h; cases h
      exact ⟨le_rfl, hp, .inr rfl, by omega, .inl (by omega)⟩
  | c :: cs, p, hr, hp, h => by
    have hpl : p < w.length := by
      rcases Nat.lt_or_ge p w.length with h | h
      · exact h
      · rw [List.drop_eq_nil_of_le h] at hr; cases hr
    have hc : w[p]? = some c := by
      have : (w.drop p)[0]? = some c := by rw [← hr]; rfl
      simpa using this
    have hcs : cs = w.drop (p + 1) := by
      have : (w.drop p).tail = cs := by rw [← hr]; rfl
      rw [← this, List.tail_drop]
    rw [stopLoop] at h
    by_cases hlt : (p : Int) < nb
    · rw [if_pos hlt] at h
      by_cases ht : isThaiTokenChar ct c = true
      · rw [if_pos ht] at h
        obtain ⟨h1, h2, h3, h4, h5⟩ := stopLoop_ok hcs (by omega) h
        refine ⟨by omega, h2, .inl (by omega), ?_, h5⟩
        intro i hi1 hi2
        rcases Nat.eq_or_lt_of_le hi1 with rfl | hi
        · exact (token_iff hc).mpr ht
        · exact h4 i hi hi2
      · rw [if_neg ht] at h
        cases h
        exact ⟨le_rfl, hp, .inr rfl, by omega, .inr ⟨hpl, by rw [token_iff hc]; exact ht⟩⟩
    · rw [if_neg hlt] at h
      cases h
      exact ⟨le_rfl, hp, .inr rfl, by omega, .inl (by omega)⟩

theorem stopLoop_total {nb : Int} (hnb : nb ≤ w.length) : ∀ {rest : U16Str} {p : Nat}, rest = w.drop p →
    p ≤ w.length → ∃ t, stopLoop ct rest p nb = .ok t
  | [], p, hr, hp => by
    have hl : w.length ≤ p := List.drop_eq_nil_iff.mp hr.symm
    rw [stopLoop, if_neg (by omega)]
    exact ⟨_, rfl⟩
  | c :: cs, p, hr, hp => by
    have hpl : p < w.length := by
      rcases Nat.lt_or_ge p w.length with h | h
      · exact h
      · rw [List.drop_eq_nil_of_le h] at hr; cases hr
    have hcs : cs = w.drop (p + 1) := by
      have : (w.drop p).tail = cs := by rw [← hr]; rfl
      rw [← this, List.tail_drop]
    rw [stopLoop]
    split
    · split
      · exact stopLoop_total hnb hcs (by omega)
      · exact ⟨_, rfl⟩
    · exact ⟨_, rfl⟩

theorem stopLoop_cases {nb : Int} : ∀ (rest : U16Str) (p : Nat),
    (∃ t, stopLoop ct rest p nb = .ok t) ∨ stopLoop ct rest p nb = .throw .outOfRange
  | [], p => by
    rw [stopLoop]
    split
    · exact .inr rfl
    · exact .inl ⟨_, rfl⟩
  | c :: cs, p => by
    rw [stopLoop]
    split
    · split
      · exact stopLoop_cases cs (p + 1)
      · exact .inl ⟨_, rfl⟩
    · exact .inl ⟨_, rfl⟩

theorem nextBreak_gt {p : Nat} (hp : p < w.length) : (p : Int) < nextBreak w brk p := by
  unfold nextBreak
  cases h : brk.find? fun b => decide (b > (p : Int)) with
  | none => simpa using hp
  | some b => have := List.find?_some h; simpa using this

theorem nextBreak_le {p : Nat} (hb : ∀ b ∈ brk, b ≤ w.length) : nextBreak w brk p ≤ w.length := by
  unfold nextBreak
  cases h : brk.find? fun b => decide (b > (p : Int)) with
  | none => simp
  | some b => exact hb b (List.mem_of_find?_eq_some h)

/-- Inside a word the next break stays the same. -/
theorem nextBreak_mid {p q : Nat} (h1 : p ≤ q) (h2 : (q : Int) < nextBreak w brk p) :
    nextBreak w brk q = nextBreak w brk p := by
  unfold nextBreak at h2 ⊢
  induction brk with
  | nil => rfl
  | cons b bs ih =>
    simp only [List.find?_cons] at h2 ⊢
    by_cases hb : b > (p : Int)
    · simp only [hb, decide_true, Option.getD_some] at h2 ⊢
      simp [h2]
    · have hb' : ¬ b > (q : Int) := by omega
      simp only [hb, hb', decide_false] at h2 ⊢
      exact ih h2

theorem nextWordStop_def (p : Nat) :
    nextWordStop ct w p brk = stopLoop ct (w.drop p) p (nextBreak w brk p) := rfl

theorem nextWordStop_ok {p t : Nat} (hp : Token ct w p) (h : nextWordStop ct w p brk = .ok t) :
    IsStop ct w brk p t := by
  rw [nextWordStop_def] at h
  have hpl := hp.lt
  obtain ⟨h1, h2, h3, h4, h5⟩ := stopLoop_ok rfl (by omega) h
  have hnb := nextBreak_gt (brk := brk) hpl
  have hpt : p < t := by
    rcases Nat.eq_or_lt_of_le h1 with rfl | h
    · rcases h5 with h5 | ⟨-, h5⟩
      · omega
      · exact absurd hp h5
    · exact h
  have h3' : (t : Int) ≤ nextBreak w brk p := by omega
  exact ⟨hpt, h2, h3', h4, h5.imp (fun h => by omega) id⟩

theorem Spec.IsStop.unique {p t t' : Nat} (h : IsStop ct w brk p t) (h' : IsStop ct w brk p t') : t = t' := by
  rcases Nat.lt_trichotomy t t' with hl | rfl | hl
  · rcases h.fin with hf | ⟨-, hf⟩
    · have := h'.bound; omega
    · exact absurd (h'.tok t (by have := h.lt; omega) hl) hf
  · rfl
  · rcases h'.fin with hf | ⟨-, hf⟩
    · have := h.bound; omega
    · exact absurd (h.tok t' (by have := h'.lt; omega) hl) hf

theorem Spec.IsStop.token {p t : Nat} (h : IsStop ct w brk p t) : Token ct w p := h.tok p le_rfl h.lt

theorem Spec.IsStop.mid {p q t : Nat} (h : IsStop ct w brk p t) (h1 : p ≤ q) (h2 : q < t) :
    IsStop ct w brk q t := by
  have hb := h.bound
  have hm := nextBreak_mid (brk := brk) (w := w) h1 (by omega)
  refine ⟨h2, h.le, by rw [hm]; exact hb, fun i hi => h.tok i (by omega), ?_⟩
  rw [hm]; exact h.fin

/-! ## Runs of other characters -/

theorem skipNonThai_ge (p : Nat) : p ≤ skipNonThai ct w p := Nat.le_add_right _ _

theorem takeWhile_length_le {α} (f : α → Bool) (l : List α) : (l.takeWhile f).length ≤ l.length :=
  (List.takeWhile_prefix f).length_le

theorem takeWhile_spec {α} (f : α → Bool) (l : List α) :
    (∀ i < (l.takeWhile f).length, ∃ c, l[i]? = some c ∧ f c = true) ∧
    ∀ c, l[(l.takeWhile f).length]? = some c → f c = false := by
  induction l with
  | nil => simp
  | cons a l ih =>
    by_cases h : f a = true
    · rw [List.takeWhile_cons_of_pos h]
      constructor
      · intro i hi
        cases i with
        | zero => exact ⟨a, rfl, h⟩
        | succ i => simpa using ih.1 i (by simpa using hi)
      · simpa using ih.2
    · rw [List.takeWhile_cons_of_neg h]
      simpa using h

theorem skipNonThai_le {p : Nat} (hp : p ≤ w.length) : skipNonThai ct w p ≤ w.length := by
  have := takeWhile_length_le (fun c => !isThaiTokenChar ct c) (w.drop p)
  rw [List.length_drop] at this
  unfold skipNonThai; omega

theorem skipNonThai_no {p i : Nat} (h1 : p ≤ i) (h2 : i < skipNonThai ct w p) : ¬ Token ct w i := by
  have := (takeWhile_spec (fun c => !isThaiTokenChar ct c) (w.drop p)).1 (i - p) (by
    unfold skipNonThai at h2; omega)
  obtain ⟨c, hc, hf⟩ := this
  rw [List.getElem?_drop, show p + (i - p) = i by omega] at hc
  rw [token_iff hc]
  simpa using hf

theorem skipNonThai_token {p : Nat} (h : skipNonThai ct w p < w.length) : Token ct w (skipNonThai ct w p) := by
  have := (takeWhile_spec (fun c => !isThaiTokenChar ct c) (w.drop p)).2
  rw [List.getElem?_drop] at this
  have hc : w[skipNonThai ct w p]? = some w[skipNonThai ct w p] := List.getElem?_eq_getElem h
  rw [token_iff hc]
  simpa using this _ hc

theorem isGap_skip {p : Nat} (hp : p ≤ w.length) (h : skipNonThai ct w p > p) :
    IsGap ct w p (skipNonThai ct w p) := by
  refine ⟨h, skipNonThai_le hp, fun i => skipNonThai_no, ?_⟩
  rcases Nat.lt_or_ge (skipNonThai ct w p) w.length with hl | hl
  · exact .inr (skipNonThai_token hl)
  · exact .inl (Nat.le_antisymm (skipNonThai_le hp) hl)

theorem Spec.IsGap.unique {p q q' : Nat} (h : IsGap ct w p q) (h' : IsGap ct w p q') : q = q' := by
  rcases Nat.lt_trichotomy q q' with hl | rfl | hl
  · rcases h.fin with hf | hf
    · have := h'.le; omega
    · exact absurd hf (h'.no q (by have := h.lt; omega) hl)
  · rfl
  · rcases h'.fin with hf | hf
    · have := h.le; omega
    · exact absurd hf (h.no q' (by have := h'.lt; omega) hl)

theorem skipNonThai_eq_of_token {p : Nat} (h : Token ct w p) : skipNonThai ct w p = p := by
  rcases Nat.eq_or_lt_of_le (skipNonThai_ge (ct := ct) (w := w) p) with h' | h'
  · exact h'.symm
  · exact absurd h (skipNonThai_no le_rfl h')

theorem token_of_skip_eq {p : Nat} (hp : p < w.length) (h : ¬ skipNonThai ct w p > p) : Token ct w p := by
  have he : skipNonThai ct w p = p := by have := skipNonThai_ge (ct := ct) (w := w) p; omega
  have := skipNonThai_token (ct := ct) (w := w) (p := p) (by omega)
  rwa [he] at this

end
end Thpronun
