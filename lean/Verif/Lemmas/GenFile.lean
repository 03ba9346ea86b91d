import Mathlib.Data.List.Forall2
import Verif.Lemmas.Dict
import Verif.Spec.GenFile

/-! # The generator on any file: helper lemmas -/

namespace Thpronun

open Spec Gen

/-! ## Characters -/

private theorem lead_table' : ∀ h < 256, ¬ h < 0x80 → (match leadByte h with
    | none => decide (leadLoop h 7 0x40 0x3f = (0x40, 0x3f) ∨ leadLoop h 7 0x40 0x3f = (0, 0))
    | some p => decide (0 < p.1 ∧ p.1 ≤ 6 ∧ p.2 < 0x20 ∧
      (leadLoop h 7 0x40 0x3f).1 = 2 ^ (6 - p.1) ∧ h &&& (leadLoop h 7 0x40 0x3f).2 = p.2)) = true := by
  decide +kernel

theorem lead_table (h : Nat) (hh : h < 256) (ha : ¬ h < 0x80) :
    (leadByte h = none → leadLoop h 7 0x40 0x3f = (0x40, 0x3f) ∨ leadLoop h 7 0x40 0x3f = (0, 0)) ∧
    ∀ p, leadByte h = some p → 0 < p.1 ∧ p.1 ≤ 6 ∧ p.2 < 0x20 ∧
      (leadLoop h 7 0x40 0x3f).1 = 2 ^ (6 - p.1) ∧ h &&& (leadLoop h 7 0x40 0x3f).2 = p.2 := by
  have := lead_table' h hh ha
  constructor
  · intro e; rw [e] at this; exact of_decide_eq_true this
  · intro p e; rw [e] at this; exact of_decide_eq_true this

theorem contLoop_zero (uc : Nat) (s : Str) : contLoop 0 uc s = none := by
  induction s generalizing uc with
  | nil => rfl
  | cons b s ih =>
    rw [contLoop, if_neg (by decide)]
    split
    · rfl
    · exact ih _

theorem foldl_mod (cs : Str) (v : Nat) :
    cs.foldl (fun v b => v * 0x40 + (b - 0x80)) (v % 0x100000000) % 0x100000000 =
      cs.foldl (fun v b => v * 0x40 + (b - 0x80)) v % 0x100000000 := by
  induction cs generalizing v with
  | nil => simp
  | cons b cs ih =>
    have e : (v % 0x100000000 * 0x40 + (b - 0x80)) % 0x100000000 = (v * 0x40 + (b - 0x80)) % 0x100000000 := by
      generalize b - 0x80 = x
      omega
    rw [List.foldl_cons, List.foldl_cons, ← ih, e, ih]

theorem contLoop_iff (k : Nat) (hk : k ≤ 6) (uc : Nat) (huc : uc < 0x100000000) (s : Str) (hs : ∀ b ∈ s, b < 256)
    (c : Nat) (r : Str) :
    contLoop (2 ^ (6 - k)) uc s = some (c, r) ↔
      ∃ cs : Str, s = cs ++ r ∧ cs.length = k ∧ (∀ b ∈ cs, 0x80 ≤ b ∧ b < 0xc0) ∧
        c = cs.foldl (fun v b => v * 0x40 + (b - 0x80)) uc % 0x100000000 := by
  induction k generalizing uc s with
  | zero =>
    rw [show 2 ^ (6 - 0) = 0x40 from rfl, contLoop_done]
    constructor
    · intro h
      have h := Prod.mk.inj (Option.some.inj h)
      exact ⟨[], by simp [h.2], rfl, by simp, by simp [← h.1, Nat.mod_eq_of_lt huc]⟩
    · rintro ⟨cs, rfl, h1, -, rfl⟩
      rw [List.length_eq_zero_iff.mp h1]
      simp [Nat.mod_eq_of_lt huc]
  | succ k ih =>
    have hne : 2 ^ (6 - (k + 1)) ≠ 0x40 := by
      intro h
      have : 6 - (k + 1) = 6 := Nat.pow_right_injective (le_refl 2) (h.trans (by decide))
      omega
    have hd : 2 ^ (6 - (k + 1)) * 2 % 256 = 2 ^ (6 - k) := by
      rw [← Nat.pow_succ, show (6 - (k + 1)).succ = 6 - k by omega]
      apply Nat.mod_eq_of_lt
      calc 2 ^ (6 - k) ≤ 2 ^ 6 := Nat.pow_le_pow_right (by decide) (by omega)
        _ < 256 := by decide
    cases s with
    | nil =>
      rw [contLoop, if_neg hne]
      constructor
      · intro h; cases h
      · rintro ⟨cs, h1, h2, -⟩
        have : cs = [] := (List.append_eq_nil_iff.mp h1.symm).1
        simp [this] at h2
    | cons b s =>
      have hb := hs b (by simp)
      rw [contLoop, if_neg hne]
      by_cases hc : 0x80 ≤ b ∧ b < 0xc0
      · rw [if_neg (not_not.mpr ((cont_iff b hb).mpr hc)), hd, cont_val b hb hc.1 hc.2,
          ih (by omega) _ (Nat.mod_lt _ (by decide)) s (fun x hx => hs x (by simp [hx]))]
        constructor
        · rintro ⟨cs, rfl, h1, h2, rfl⟩
          refine ⟨b :: cs, rfl, by simp [h1], ?_, ?_⟩
          · intro x hx
            rcases List.mem_cons.mp hx with rfl | hx
            · exact hc
            · exact h2 x hx
          · rw [List.foldl_cons, foldl_mod]
        · rintro ⟨cs, h0, h1, h2, rfl⟩
          cases cs with
          | nil => simp at h1
          | cons x cs =>
            rw [List.cons_append, List.cons.injEq] at h0
            obtain ⟨rfl, rfl⟩ := h0
            exact ⟨cs, rfl, by simpa using h1, fun y hy => h2 y (by simp [hy]), by rw [List.foldl_cons, foldl_mod]⟩
      · rw [if_pos fun e => hc ((cont_iff b hb).mp e)]
        constructor
        · intro h; cases h
        · rintro ⟨cs, h0, h1, h2, -⟩
          cases cs with
          | nil => simp at h1
          | cons x cs =>
            rw [List.cons_append, List.cons.injEq] at h0
            exact absurd (h0.1 ▸ h2 x (by simp)) hc

theorem getUTF8_iff (s : Str) (hs : ∀ b ∈ s, b < 256) (c : Nat) (r : Str) :
    getUTF8 s = some (c, r) ↔ ∃ p, s = p ++ r ∧ CharAs p c := by
  cases s with
  | nil =>
    constructor
    · intro h; cases h
    · rintro ⟨p, h, x, cs, v, rfl, -⟩; simp at h
  | cons h s =>
    have hh := hs h (by simp)
    have hs' : ∀ b ∈ s, b < 256 := fun b hb => hs b (by simp [hb])
    have key : ∀ q : Nat × Nat, leadByte h = some q →
        ((∃ p, h :: s = p ++ r ∧ CharAs p c) ↔ ∃ cs : Str, s = cs ++ r ∧ cs.length = q.1 ∧
          (∀ b ∈ cs, 0x80 ≤ b ∧ b < 0xc0) ∧
          c = cs.foldl (fun v b => v * 0x40 + (b - 0x80)) q.2 % 0x100000000) := by
      intro q hq
      constructor
      · rintro ⟨p, h0, x, cs, v, rfl, h1, h2, h3⟩
        rw [List.cons_append, List.cons.injEq] at h0
        obtain ⟨rfl, rfl⟩ := h0
        rw [hq] at h1
        have h1 := Option.some.inj h1
        exact ⟨cs, rfl, by rw [h1], h2, by rw [h1]; exact h3⟩
      · rintro ⟨cs, rfl, h1, h2, h3⟩
        exact ⟨h :: cs, rfl, h, cs, q.2, rfl, by rw [hq, h1], h2, h3⟩
    have none' : leadByte h = none → ¬ ∃ p, h :: s = p ++ r ∧ CharAs p c := by
      rintro hn ⟨p, h0, x, cs, v, rfl, h1, -⟩
      rw [List.cons_append, List.cons.injEq] at h0
      rw [← h0.1, hn] at h1
      cases h1
    rw [getUTF8]
    by_cases ha : h < 0x80
    · rw [if_pos ((ascii_iff h hh).mpr ha), key (0, h) (by rw [leadByte, if_pos ha])]
      constructor
      · intro e
        have e := Prod.mk.inj (Option.some.inj e)
        exact ⟨[], by simp [e.2], rfl, by simp, by simp only [List.foldl_nil]; omega⟩
      · rintro ⟨cs, rfl, h1, -, rfl⟩
        rw [List.length_eq_zero_iff.mp h1]
        simp only [List.foldl_nil, List.nil_append, Option.some.injEq, Prod.mk.injEq, and_true]
        omega
    · rw [if_neg fun e => ha ((ascii_iff h hh).mp e)]
      obtain ⟨t1, t2⟩ := lead_table h hh ha
      cases hl : leadByte h with
      | none =>
        rw [iff_false_right (none' hl)]
        rcases t1 hl with e | e <;> rw [e] <;> simp only
        · simp
        · rw [if_neg (by decide), contLoop_zero]; simp
      | some q =>
        obtain ⟨a1, a2, a3, a4, a5⟩ := t2 q hl
        rw [key q hl, ← contLoop_iff q.1 a2 q.2 (by omega) s hs']
        generalize leadLoop h 7 0x40 0x3f = x at a4 a5
        obtain ⟨check, mask⟩ := x
        simp only at a4 a5 ⊢
        have hne : check ≠ 0x40 := by
          rw [a4]
          intro e
          have : 6 - q.1 = 6 := Nat.pow_right_injective (le_refl 2) (e.trans (by decide))
          omega
        rw [if_neg hne, a4, a5]

theorem charAs_ne {p : Str} {c} (h : CharAs p c) : p ≠ [] := by
  obtain ⟨x, cs, v, rfl, -⟩ := h; simp

theorem wordLoop_iff (n : Nat) (s : Str) (hs : ∀ b ∈ s, b < 256) (hn : s.length ≤ n) (w : List Nat) :
    wordLoop n s = some w ↔ WordAs s w := by
  induction n generalizing s w with
  | zero =>
    have : s = [] := List.length_eq_zero_iff.mp (by omega)
    subst this
    rw [wordLoop]
    constructor
    · intro h; cases h; exact .nil
    · intro h
      generalize he : ([] : Str) = s at h
      cases h with
      | nil => rfl
      | cons p s c w hc r => exact absurd (List.append_eq_nil_iff.mp he.symm).1 (charAs_ne hc)
  | succ n ih =>
    cases s with
    | nil =>
      rw [wordLoop]
      constructor
      · intro h; cases h; exact .nil
      · intro h
        generalize he : ([] : Str) = s at h
        cases h with
        | nil => rfl
        | cons p s c w hc r => exact absurd (List.append_eq_nil_iff.mp he.symm).1 (charAs_ne hc)
    | cons b s =>
      rw [wordLoop]
      constructor
      · intro h
        cases hg : getUTF8 (b :: s) with
        | none => rw [hg] at h; cases h
        | some q =>
          obtain ⟨c, r⟩ := q
          rw [hg] at h
          obtain ⟨w', hw, rfl⟩ := Option.map_eq_some_iff.mp h
          obtain ⟨p, hp, hc⟩ := (getUTF8_iff _ hs c r).mp hg
          rw [hp]
          refine .cons p r c w' hc ((ih r (fun x hx => hs x (by rw [hp]; simp [hx])) ?_ w').mp hw)
          have h1 := congrArg List.length hp
          have h2 := List.length_pos_iff.mpr (charAs_ne hc)
          simp only [List.length_cons, List.length_append] at h1 hn
          omega
      · intro h
        generalize he : b :: s = s' at h
        cases h with
        | nil => cases he
        | cons p r c w hc hr =>
          rw [(getUTF8_iff (p ++ r) (he ▸ hs) c r).mpr ⟨p, rfl, hc⟩]
          simp only
          rw [(ih r (fun x hx => hs x (by rw [he]; simp [hx])) ?_ w).mpr hr]
          · rfl
          have h1 := congrArg List.length he
          have h2 := List.length_pos_iff.mpr (charAs_ne hc)
          simp only [List.length_cons, List.length_append] at h1 hn
          omega

/-! ## Lines -/

/-- What the reader makes of a line without newline. -/
def lineOf (l : Str) : Option (List Nat × Str) :=
  if 9 ∉ l then none
  else (wordLoop 255 (l.takeWhile (· ≠ 9))).map fun w => (w, (l.dropWhile (· ≠ 9)).drop 1)

theorem lineOf_sound {l : Str} (hl : ∀ b ∈ l, b < 256) (hn : l.length ≤ 255) {w d}
    (h : lineOf l = some (w, d)) : LineAs l ⟨w.takeWhile (· ≠ 0), d⟩ := by
  unfold lineOf at h
  split at h
  · cases h
  rename_i h9
  obtain ⟨w', hw, he⟩ := Option.map_eq_some_iff.mp h
  obtain ⟨rfl, rfl⟩ := Prod.mk.inj he
  obtain ⟨p, q, hp, h9'⟩ := List.eq_append_cons_of_mem (not_not.mp h9)
  obtain ⟨t1, t2⟩ := takeWhile_append_stop (fun b : Nat => decide (b ≠ 9)) p 9 q
    (fun b hb => by simp; rintro rfl; exact h9' hb) (by simp)
  rw [hp, t1] at hw
  refine ⟨p, w', ?_, h9', (wordLoop_iff 255 p (fun b hb => hl b (by rw [hp]; simp [hb])) ?_ w').mp hw, rfl⟩
  · rw [hp, t2]; rfl
  · rw [hp] at hn; simp at hn; omega

theorem lineOf_complete {l : Str} (hl : ∀ b ∈ l, b < 256) (hn : l.length ≤ 255) {e}
    (h : LineAs l e) : ∃ w, lineOf l = some (w, e.data) ∧ w.takeWhile (· ≠ 0) = e.word := by
  obtain ⟨p, w, rfl, h9, hw, he⟩ := h
  obtain ⟨t1, t2⟩ := takeWhile_append_stop (fun b : Nat => decide (b ≠ 9)) p 9 e.data
    (fun b hb => by simp; rintro rfl; exact h9 hb) (by simp)
  refine ⟨w, ?_, he.symm⟩
  unfold lineOf
  rw [if_neg (by simp), t1, t2, (wordLoop_iff 255 p (fun b hb => hl b (by simp [hb]))
    (by simp at hn; omega) w).mpr hw]
  rfl

theorem readInput_of {f buf rest line : Str} (hf : fgets 255 f = (buf, rest)) (h0 : 0 ∉ buf) (hb : buf ≠ [])
    (hl : (if buf.getLast? = some 10 then buf.dropLast else buf) = line) :
    readInput f = .ok (lineOf line, rest) := by
  unfold readInput
  rw [hf]
  simp only
  have : buf.takeWhile (fun x => decide (x ≠ 0)) = buf :=
    List.takeWhile_eq_self_iff.mpr fun b hb => by simp; rintro rfl; exact h0 hb
  rw [this, if_neg hb, if_neg hb, hl, lineOf]
  split
  · rfl
  · cases wordLoop 255 (line.takeWhile fun x => decide (x ≠ 9)) <;> rfl

theorem fgets_cut (n : Nat) (l r : Str) (hl : 10 ∉ l) (hn : l.length = n) : fgets n (l ++ r) = (l, r) := by
  induction l generalizing n with
  | nil => subst hn; simp [fgets]
  | cons b l ih =>
    subst hn
    simp only [List.mem_cons, not_or] at hl
    rw [List.length_cons, List.cons_append, fgets, if_neg (Ne.symm hl.1), ih _ hl.2 rfl]

theorem fgets_last (n : Nat) (l : Str) (hl : 10 ∉ l) (hn : l.length ≤ n) : fgets n l = (l, []) := by
  induction l generalizing n with
  | nil => cases n <;> rfl
  | cons b l ih =>
    obtain ⟨n, rfl⟩ : ∃ m, n = m + 1 := ⟨n - 1, by simp at hn; omega⟩
    simp only [List.mem_cons, not_or] at hl
    rw [fgets, if_neg (Ne.symm hl.1), ih _ hl.2 (by simp at hn; omega)]

theorem last_ne {l : Str} (h : 10 ∉ l) : l.getLast? ≠ some 10 :=
  fun e => h (List.mem_of_getLast? e)

/-- One step of the reader. -/
theorem fileLines_step {f : Str} {ls : List Str} (h : FileLines f ls) (h0 : 0 ∉ f) :
    (f = [] ∧ ls = []) ∨ ∃ l f' ls', ls = l :: ls' ∧ readInput f = .ok (lineOf l, f') ∧ FileLines f' ls' ∧
      f'.length < f.length ∧ (∀ b ∈ f', b ∈ f) ∧ (∀ b ∈ l, b ∈ f) ∧ l.length ≤ 255 := by
  cases h with
  | nil => exact .inl ⟨rfl, rfl⟩
  | line l f ls h hn r =>
    refine .inr ⟨l, f, ls, rfl, ?_, r, by simp; omega, by simp +contextual, by simp +contextual, by omega⟩
    refine readInput_of (fgets_line 255 l f h (by omega)) ?_ (by simp) (by simp)
    intro hx
    apply h0
    rcases List.mem_append.mp hx with hx | hx
    · simp [hx]
    · simp at hx
  | cut l f ls h hn r =>
    refine .inr ⟨l, f, ls, rfl, ?_, r, by simp; omega, by simp +contextual, by simp +contextual, by omega⟩
    exact readInput_of (fgets_cut 255 l f h hn) (fun hx => h0 (by simp [hx])) (by rintro rfl; simp at hn)
      (if_neg (last_ne h))
  | last _ h hn =>
    refine .inr ⟨f, [], [], rfl, ?_, .nil, hn.1, by simp, by simp, by omega⟩
    exact readInput_of (fgets_last 255 f h (by omega)) h0 (by rintro rfl; simp at hn) (if_neg (last_ne h))

theorem fileLines_exists (f : Str) : ∃ ls, FileLines f ls := by
  generalize hn : f.length = n
  induction n using Nat.strongRecOn generalizing f with
  | _ n ih =>
    by_cases hf : f = []
    · exact ⟨[], hf ▸ .nil⟩
    by_cases h10 : 10 ∈ f
    · obtain ⟨p, q, rfl, hp⟩ := List.eq_append_cons_of_mem h10
      by_cases hl : p.length ≤ 254
      · obtain ⟨ls, h⟩ := ih q.length (by rw [← hn]; simp; omega) q rfl
        exact ⟨_, .line p q ls hp hl h⟩
      · have e : p ++ 10 :: q = p.take 255 ++ (p.drop 255 ++ 10 :: q) := by
          rw [← List.append_assoc, List.take_append_drop]
        obtain ⟨ls, h⟩ := ih _ (by rw [← hn]; simp; omega) (p.drop 255 ++ 10 :: q) rfl
        rw [e]
        exact ⟨_, .cut _ _ ls (fun hx => hp (List.mem_of_mem_take hx)) (by simp; omega) h⟩
    · by_cases hl : f.length ≤ 254
      · exact ⟨_, .last f h10 ⟨List.length_pos_iff.mpr hf, hl⟩⟩
      · have e : f = f.take 255 ++ f.drop 255 := (List.take_append_drop ..).symm
        obtain ⟨ls, h⟩ := ih _ (by rw [← hn]; simp; omega) (f.drop 255) rfl
        rw [e]
        exact ⟨_, .cut _ _ ls (fun hx => h10 (List.mem_of_mem_take hx)) (by simp; omega) h⟩

/-- The pieces `fgets` returns determine the lines. -/
theorem fileLines_fgets {f : Str} {ls : List Str} (h : FileLines f ls) :
    (f = [] ∧ ls = []) ∨ ∃ l f' ls', ls = l :: ls' ∧ FileLines f' ls' ∧ f ≠ [] ∧ f'.length < f.length ∧
      (fgets 255 f).2 = f' ∧ (if (fgets 255 f).1.getLast? = some 10 then (fgets 255 f).1.dropLast
        else (fgets 255 f).1) = l := by
  cases h with
  | nil => exact .inl ⟨rfl, rfl⟩
  | line l f ls h hn r =>
    refine .inr ⟨l, f, ls, rfl, r, by simp, by simp; omega, ?_⟩
    rw [fgets_line 255 l f h (by omega)]
    simp
  | cut l f ls h hn r =>
    refine .inr ⟨l, f, ls, rfl, r, ?_, by simp; omega, ?_⟩
    · intro e; simp [(List.append_eq_nil_iff.mp e).1] at hn
    rw [fgets_cut 255 l f h hn]
    exact ⟨rfl, if_neg (last_ne h)⟩
  | last _ h hn =>
    refine .inr ⟨f, [], [], rfl, .nil, List.length_pos_iff.mp hn.1, hn.1, ?_⟩
    rw [fgets_last 255 f h (by omega)]
    exact ⟨rfl, if_neg (last_ne h)⟩

theorem fileLines_unique {f : Str} {ls ls' : List Str} (h : FileLines f ls) (h' : FileLines f ls') : ls = ls' := by
  generalize hn : f.length = n
  induction n using Nat.strongRecOn generalizing f ls ls' with
  | _ n ih =>
    rcases fileLines_fgets h with ⟨rfl, rfl⟩ | ⟨l, g, k, rfl, r, hne, hlt, h1, h2⟩ <;>
      rcases fileLines_fgets h' with ⟨h3, rfl⟩ | ⟨l', g', k', rfl, r', hne', hlt', h1', h2'⟩
    · rfl
    · exact absurd rfl hne'
    · exact absurd h3 hne
    · rw [h1] at h1'
      rw [h2] at h2'
      subst h1' h2'
      rw [ih g.length (by omega) r r' rfl]

theorem fileLines_mem {f : Str} {ls : List Str} (h : FileLines f ls) :
    ∀ l ∈ ls, (∀ b ∈ l, b ∈ f) ∧ l.length ≤ 255 := by
  induction h with
  | nil => simp
  | line l f ls h hn r ih =>
    intro x hx
    rcases List.mem_cons.mp hx with rfl | hx
    · exact ⟨by simp +contextual, by omega⟩
    · exact ⟨fun b hb => by simp [(ih x hx).1 b hb], (ih x hx).2⟩
  | cut l f ls h hn r ih =>
    intro x hx
    rcases List.mem_cons.mp hx with rfl | hx
    · exact ⟨by simp +contextual, by omega⟩
    · exact ⟨fun b hb => by simp [(ih x hx).1 b hb], (ih x hx).2⟩
  | last l h hn => simpa using by omega

theorem forall₂_mem_right {α β} {R : α → β → Prop} {l : List α} {m : List β} (h : List.Forall₂ R l m) {y} (hy : y ∈ m) :
    ∃ x ∈ l, R x y := by
  induction h with
  | nil => cases hy
  | cons hr _ ih =>
    rcases List.mem_cons.mp hy with rfl | hy
    · exact ⟨_, by simp, hr⟩
    · obtain ⟨x, hx, hr⟩ := ih hy
      exact ⟨x, by simp [hx], hr⟩

theorem forall₂_mem_left {α β} {R : α → β → Prop} {l : List α} {m : List β} (h : List.Forall₂ R l m) {x} (hx : x ∈ l) :
    ∃ y ∈ m, R x y := by
  induction h with
  | nil => cases hx
  | cons hr _ ih =>
    rcases List.mem_cons.mp hx with rfl | hx
    · exact ⟨_, by simp, hr⟩
    · obtain ⟨y, hy, hr⟩ := ih hx
      exact ⟨y, by simp [hy], hr⟩

/-! ## The loop -/

/-- The lines before the first malformed one. -/
theorem goodLines (ls : List Str) : ∃ good rest es, ls = good ++ rest ∧ List.Forall₂ LineAs good es ∧
    ∀ l ∈ rest.head?, ∀ e, ¬ LineAs l e := by
  induction ls with
  | nil => exact ⟨[], [], [], rfl, .nil, by simp⟩
  | cons l ls ih =>
    by_cases hl : ∃ e, LineAs l e
    · obtain ⟨e, he⟩ := hl
      obtain ⟨good, rest, es, h1, h2, h3⟩ := ih
      exact ⟨l :: good, rest, e :: es, by rw [h1]; rfl, .cons he h2, h3⟩
    · refine ⟨[], l :: ls, [], rfl, .nil, ?_⟩
      intro l' hl' e he
      simp only [List.head?_cons, Option.mem_def, Option.some.injEq] at hl'
      exact hl ⟨e, hl' ▸ he⟩

theorem genLoop_file (junk : Byte) {f : Str} {ls : List Str} (hls : FileLines f ls) (h0 : 0 ∉ f)
    (hb : ∀ b ∈ f, b < 256) (fuel : Nat) (hf : f.length < fuel) (t : Trie) (b : DataBank) (old : List DEntry)
    (h : GenInv t b old) :
    ∃ good rest es, ls = good ++ rest ∧ List.Forall₂ LineAs good es ∧
      (∀ l ∈ rest.head?, ∀ e, ¬ LineAs l e) ∧
      ((∀ e ∈ es, ThaiWord e.word) → ∃ t' b', genLoop junk fuel f t b = .ok (.success t' b') ∧
        GenInv t' b' (es.reverse ++ old)) ∧
      ((∃ e ∈ es, ¬ ThaiWord e.word) → genLoop junk fuel f t b = .ok .failure) := by
  induction fuel generalizing f ls t b old with
  | zero => omega
  | succ fuel ih =>
    rcases fileLines_step hls h0 with ⟨rfl, rfl⟩ | ⟨l, f', ls', rfl, hr, hls', hlt, hm, hl, hlen⟩
    · exact ⟨[], [], [], rfl, .nil, by simp, fun _ => ⟨t, b, rfl, h⟩, by simp⟩
    have hl256 : ∀ b ∈ l, b < 256 := fun x hx => hb x (hl x hx)
    rw [genLoop, hr]
    simp only [Res.ok_bind]
    cases hlo : lineOf l with
    | none =>
      refine ⟨[], l :: ls', [], rfl, .nil, ?_, fun _ => ⟨t, b, rfl, h⟩, by simp⟩
      intro l' hl' e he
      simp only [List.head?_cons, Option.mem_def, Option.some.injEq] at hl'
      subst hl'
      obtain ⟨w, hw, -⟩ := lineOf_complete hl256 hlen he
      rw [hlo] at hw; cases hw
    | some q =>
      obtain ⟨w, d⟩ := q
      have hline := lineOf_sound hl256 hlen hlo
      have hd : 0 ∉ d := readInput_data (hlo ▸ hr)
      obtain ⟨b1, h2, h3, _⟩ := addData_spec junk b _ d h.bank
      simp only [h2, Res.ok_bind]
      by_cases hall : ThaiWord (w.takeWhile (· ≠ 0))
      · have ht : ∃ t1, trieStore t w b.dataSize = some t1 := by
          have : (w.takeWhile (· ≠ 0)).all inAlphabet = true := by
            rw [List.all_eq_true]
            intro c hc
            simpa [inAlphabet] using hall c hc
          rw [trieStore]; simp only [this, if_true]; exact ⟨_, rfl⟩
        obtain ⟨t1, ht⟩ := ht
        rw [ht]
        obtain ⟨good, rest, es, h4, h5, h6, h7, h8⟩ := ih hls' (fun hx => h0 (hm 0 hx)) (fun x hx => hb x (hm x hx))
          (by omega) t1 b1 _ (genInv_store h h3 hd ht)
        refine ⟨l :: good, rest, _ :: es, by rw [h4]; rfl, .cons hline h5, h6, fun ha => ?_, fun he => ?_⟩
        · obtain ⟨t', b', h9, h10⟩ := h7 fun e he => ha e (by simp [he])
          exact ⟨t', b', h9, by simpa using h10⟩
        · refine h8 ?_
          obtain ⟨e, he, hn⟩ := he
          rcases List.mem_cons.mp he with rfl | he
          · exact absurd hall hn
          · exact ⟨e, he, hn⟩
      · have ht : trieStore t w b.dataSize = none := by
          rw [trieStore, if_neg]
          rw [List.all_eq_true]
          intro hx
          exact hall fun c hc => by simpa [inAlphabet] using hx c hc
        rw [ht]
        obtain ⟨good, rest, es, h4, h5, h6⟩ := goodLines ls'
        refine ⟨l :: good, rest, _ :: es, by rw [h4]; rfl, .cons hline h5, h6, fun ha => ?_, fun _ => rfl⟩
        exact absurd (ha _ (List.mem_cons_self ..)) hall

end Thpronun
