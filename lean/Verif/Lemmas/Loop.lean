import Verif.Model.Loop

/-! # Unbounded loops: helper lemmas -/

namespace Thpronun
open Res

variable {σ α : Type} {step : σ → Res (σ ⊕ α)}

theorem iterLoop_mono {n : Nat} {s : σ} (h : iterLoop step n s ≠ .diverge) (k : Nat) :
    iterLoop step (n + k) s = iterLoop step n s := by
  induction n generalizing s with
  | zero => exact absurd rfl h
  | succ n ih =>
    rw [show n + 1 + k = (n + k) + 1 by omega]
    unfold iterLoop at h ⊢
    cases hs : step s with
    | ok r =>
      cases r with
      | inl s' => simp only [hs] at h ⊢; exact ih h
      | inr a => rfl
    | throw e => rfl
    | ub => rfl
    | diverge => rfl

theorem whileLoop_eq {n : Nat} {s : σ} (h : iterLoop step n s ≠ .diverge) :
    whileLoop step s = iterLoop step n s := by
  unfold whileLoop
  have hex : ∃ n, iterLoop step n s ≠ .diverge := ⟨n, h⟩
  rw [dif_pos hex]
  have hc := Classical.choose_spec hex
  generalize Classical.choose hex = m at hc ⊢
  rcases Nat.le_total m n with hl | hl
  · obtain ⟨k, rfl⟩ := Nat.exists_eq_add_of_le hl
    rw [iterLoop_mono hc]
  · obtain ⟨k, rfl⟩ := Nat.exists_eq_add_of_le hl
    rw [iterLoop_mono h]

theorem iterLoop_of_whileLoop {s : σ} (h : whileLoop step s ≠ .diverge) :
    ∃ n, iterLoop step n s = whileLoop step s ∧ iterLoop step n s ≠ .diverge := by
  by_cases hex : ∃ n, iterLoop step n s ≠ .diverge
  · obtain ⟨n, hn⟩ := hex
    exact ⟨n, (whileLoop_eq hn).symm, hn⟩
  · unfold whileLoop at h
    rw [dif_neg hex] at h
    exact absurd rfl h

/-- Invariant rule (partial correctness). -/
theorem whileLoop_inv {I : σ → Prop} {Q : α → Prop} (hstep : ∀ s, I s → (step s).SatP fun r =>
      match r with
      | .inl s' => I s'
      | .inr a => Q a) {s : σ} (h : I s) : (whileLoop step s).SatP Q := by
  rw [satP_iff]
  intro a ha
  obtain ⟨n, hn, -⟩ := iterLoop_of_whileLoop (by rw [ha]; simp)
  rw [ha] at hn
  induction n generalizing s with
  | zero => cases hn
  | succ n ih =>
    have hi := hstep s h
    unfold iterLoop at hn
    cases hs : step s with
    | ok r =>
      rw [hs] at hn hi
      cases r with
      | inl s' =>
        replace hn : iterLoop step n s' = .ok a := hn
        refine ih hi ?_ hn
        rw [whileLoop_eq (n := n) (by rw [hn]; simp), hn]
      | inr b => cases hn; exact hi
    | throw e => rw [hs] at hn; cases hn
    | ub => rw [hs] at hn; cases hn
    | diverge => rw [hs] at hn; cases hn

/-- Termination: every turn that goes on decreases a well-founded relation, within an invariant. -/
theorem whileLoop_total {I : σ → Prop} {R : σ → σ → Prop} (hwf : WellFounded R) {O : Res α → Prop}
    (hstep : ∀ s, I s →
      match step s with
      | .ok (.inl s') => I s' ∧ R s' s
      | .ok (.inr a) => O (.ok a)
      | .throw e => O (.throw e)
      | .ub => O .ub
      | .diverge => False) {s : σ} (h : I s) : whileLoop step s ≠ .diverge ∧ O (whileLoop step s) := by
  have key : ∀ s, I s → ∃ n, iterLoop step n s ≠ .diverge ∧ O (iterLoop step n s) := by
    intro s
    induction s using hwf.induction with
    | _ s ih =>
      intro h
      have hi := hstep s h
      cases hs : step s with
      | ok r =>
        rw [hs] at hi
        cases r with
        | inl s' =>
          obtain ⟨n, hn⟩ := ih s' hi.2 hi.1
          exact ⟨n + 1, by simpa only [iterLoop, hs] using hn⟩
        | inr a => exact ⟨1, by simpa only [iterLoop, hs] using ⟨by simp, hi⟩⟩
      | throw e => rw [hs] at hi; exact ⟨1, by simpa only [iterLoop, hs] using ⟨by simp, hi⟩⟩
      | ub => rw [hs] at hi; exact ⟨1, by simpa only [iterLoop, hs] using ⟨by simp, hi⟩⟩
      | diverge => rw [hs] at hi; exact hi.elim
  obtain ⟨n, h1, h2⟩ := key s h
  rw [whileLoop_eq h1]
  exact ⟨h1, h2⟩

end Thpronun
