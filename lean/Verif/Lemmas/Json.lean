import Verif.Lemmas.Output

/-! # What the JSON reader can make of unescaped text -/

namespace Thpronun
open Res Spec

/-- The raw text `c` of a string and its meaning `s`: escapes shorten, and a quotation mark in the raw text is the second
half of an escape. -/
structure RawText (c s : Str) : Prop where
  le : s.length ≤ c.length
  lt : 92 ∈ c → s.length < c.length
  quote : ∀ i : Nat, c[i]? = some 34 → ∃ j : Nat, j < i ∧ s[j]? = some 34
  ctl : ∀ b ∈ c, 32 ≤ b

theorem RawText.nil : RawText [] [] := ⟨by simp, by simp, by simp, by simp⟩

theorem RawText.append {e d c s : Str} (h1 : RawText e d) (h2 : RawText c s) : RawText (e ++ c) (d ++ s) := by
  have := h1.le
  have := h2.le
  refine ⟨by simp; omega, fun h => ?_, fun i hi => ?_, fun b hb => (List.mem_append.mp hb).elim (h1.ctl b) (h2.ctl b)⟩
  · rcases List.mem_append.mp h with h | h
    · have := h1.lt h
      simp; omega
    · have := h2.lt h
      simp; omega
  · rcases Nat.lt_or_ge i e.length with hl | hl
    · rw [List.getElem?_append_left hl] at hi
      obtain ⟨j, hj, h⟩ := h1.quote i hi
      exact ⟨j, hj, by rw [List.getElem?_append_left (List.getElem?_eq_some_iff.mp h).1]; exact h⟩
    · rw [List.getElem?_append_right hl] at hi
      obtain ⟨j, hj, h⟩ := h2.quote _ hi
      exact ⟨d.length + j, by omega, by rw [List.getElem?_append_right (by omega), Nat.add_sub_cancel_left]; exact h⟩

theorem RawText.plain {c : Nat} (h : c ≠ 34) (hs : ¬c < 32) (h' : c ≠ 92) : RawText [c] [c] := by
  refine ⟨by simp, by simp; omega, fun i hi => ?_, by simp; omega⟩
  match i with
  | 0 => cases hi; exact absurd rfl h
  | i + 1 => cases hi

/-- An escape without a quotation mark. -/
theorem RawText.esc {e d : Str} (hl : d.length < e.length) (hq : ∀ b ∈ e, 48 ≤ b) : RawText e d :=
  ⟨by omega, fun _ => hl, fun i hi => absurd (hq 34 (List.mem_of_getElem? hi)) (by omega),
    fun b hb => Nat.le_trans (by omega) (hq b hb)⟩

theorem RawText.unesc {d e : Nat} (h : unescape d = some e) : RawText [92, d] [e] := by
  refine ⟨by simp, by simp, fun i hi => ?_, fun b hb => ?_⟩
  rotate_left
  · simp only [List.mem_cons, List.not_mem_nil, or_false] at hb
    rcases hb with rfl | rfl
    · omega
    · by_contra hlt
      revert h
      have : b < 32 := by omega
      unfold unescape
      rw [if_neg (by omega), if_neg (by omega), if_neg (by omega), if_neg (by omega), if_neg (by omega), if_neg (by omega)]
      simp
  match i with
  | 0 => cases hi
  | 1 =>
    cases hi
    cases h
    exact ⟨0, by omega, rfl⟩
  | i + 2 => cases hi

theorem utf8EncodeOne_le (c : Nat) : (utf8EncodeOne c).length ≤ 4 := by
  unfold utf8EncodeOne
  split
  · simp
  split
  · simp
  split <;> simp

theorem hexDigit_ge {a u : Nat} (h : hexDigit a = some u) : 48 ≤ a := by
  by_contra hlt
  revert h
  unfold hexDigit
  rw [if_neg (by omega), if_neg (by omega), if_neg (by omega)]
  simp

theorem hex4_ge {a b c d u : Nat} (h : hex4 a b c d = some u) : 48 ≤ a ∧ 48 ≤ b ∧ 48 ≤ c ∧ 48 ≤ d := by
  unfold hex4 at h
  simp only [Option.pure_def, Option.bind_eq_bind, Option.bind_eq_some_iff] at h
  obtain ⟨_, ha, _, hb, _, hc, _, hd, _⟩ := h
  exact ⟨hexDigit_ge ha, hexDigit_ge hb, hexDigit_ge hc, hexDigit_ge hd⟩

theorem readString_raw {t s r : Str} (h : readString t = some (s, r)) : ∃ c, t = c ++ 34 :: r ∧ RawText c s := by
  induction hn : t.length using Nat.strongRecOn generalizing t s with
  | ind n ih =>
    subst hn
    cases t with
    | nil => simp [readString] at h
    | cons c t =>
      rw [readString.eq_def] at h
      simp only at h
      split at h
      · rename_i hc
        cases h
        exact ⟨[], by simp [hc], .nil⟩
      rename_i h34
      split at h
      · cases h
      rename_i h32
      split at h
      · rename_i h92
        subst h92
        cases t with
        | nil => cases h
        | cons d t =>
          simp only at h
          split at h
          · rename_i hd
            subst hd
            split at h
            · rename_i a1 a2 a3 a4 r1
              split at h
              · cases h
              rename_i u hu
              have hq := hex4_ge hu
              split at h
              · split at h
                · rename_i s1 t1 h1
                  cases h
                  obtain ⟨c, rfl, hc⟩ := ih _ (by simp only [List.length_cons]; omega) h1 rfl
                  refine ⟨[92, 117, a1, a2, a3, a4] ++ c, by simp, .append (.esc ?_ ?_) hc⟩
                  · have := utf8EncodeOne_le u
                    simp only [List.length_cons, List.length_nil]; omega
                  · simp only [List.mem_cons, List.not_mem_nil, or_false]
                    omega
                · cases h
              · split at h
                · rename_i b u' b1 b2 b3 b4 r2
                  split at h
                  · cases h
                  rename_i l hl
                  have hq2 := hex4_ge hl
                  split at h
                  · rename_i hcond
                    obtain ⟨rfl, rfl, _⟩ := hcond
                    split at h
                    · rename_i s1 t1 h1
                      obtain ⟨hs, ht⟩ := Prod.mk.inj (Option.some.inj h)
                      subst ht
                      subst hs
                      obtain ⟨c, rfl, hc⟩ := ih _ (by simp only [List.length_cons]; omega) h1 rfl
                      refine ⟨[92, 117, a1, a2, a3, a4, 92, 117, b1, b2, b3, b4] ++ c, by simp, .append (.esc ?_ ?_) hc⟩
                      · generalize 0x10000 + (u - 0xd800) * 0x400 + (l - 0xdc00) = z
                        have := utf8EncodeOne_le z
                        simp only [List.length_cons, List.length_nil]; omega
                      · simp only [List.mem_cons, List.not_mem_nil, or_false]
                        omega
                    · cases h
                  · cases h
                · cases h
            · cases h
          · split at h
            · rename_i e s1 t1 he h1
              cases h
              obtain ⟨c, rfl, hc⟩ := ih _ (by simp only [List.length_cons]; omega) h1 rfl
              exact ⟨[92, d] ++ c, by simp, .append (.unesc he) hc⟩
            · cases h
      · rename_i h92
        split at h
        · rename_i s1 t1 h1
          cases h
          obtain ⟨c', rfl, hc⟩ := ih _ (by simp only [List.length_cons]; omega) h1 rfl
          exact ⟨[c] ++ c', by simp, .append (.plain h34 h32 h92) hc⟩
        · cases h

/-- Unescaped text is read as itself only if it needs no escapes. -/
theorem readString_exact {x r r' : Str} (h : readString (x ++ 34 :: r) = some (x, r')) : JsonSafe x ∧ r' = r := by
  suffices hs : JsonSafe x by
    rw [readString_safe x r hs] at h
    cases h
    exact ⟨hs, rfl⟩
  obtain ⟨c, hc, hraw⟩ := readString_raw h
  -- the raw text is not longer than `x`: otherwise there is a first quotation mark in it, and one before it
  have hle : c.length ≤ x.length := by
    by_contra hlt
    have hlt : x.length < c.length := by omega
    have pre : ∀ i, i < c.length → c[i]? = (x ++ 34 :: r)[i]? := by
      intro i hi
      rw [hc, List.getElem?_append_left hi]
    have no : ∀ i, i < c.length → c[i]? ≠ some 34 := by
      intro i
      induction i using Nat.strongRecOn with
      | ind i ih =>
        intro hi h34
        obtain ⟨j, hj, hs⟩ := hraw.quote i h34
        refine ih j hj (by omega) ?_
        rw [pre j (by omega), List.getElem?_append_left (List.getElem?_eq_some_iff.mp hs).1]
        exact hs
    refine no x.length hlt ?_
    rw [pre _ hlt, List.getElem?_append_right (by omega)]
    simp
  have hcx : c = x := by
    have h1 := hraw.le
    have h2 : c.length = x.length := by omega
    exact (List.append_inj hc.symm h2).1
  subst hcx
  intro b hb
  have h92 : b ≠ 92 := by
    rintro rfl
    have := hraw.lt hb
    omega
  have h34 : b ≠ 34 := by
    rintro rfl
    obtain ⟨i, hi⟩ := List.mem_iff_getElem?.mp hb
    -- the first quotation mark
    have no : ∀ i : Nat, c[i]? ≠ some 34 := by
      intro i
      induction i using Nat.strongRecOn with
      | ind i ih =>
        intro hi
        obtain ⟨j, hj, hs⟩ := hraw.quote i hi
        exact ih j hj hs
    exact no i hi
  exact ⟨hraw.ctl b hb, h34, h92⟩

/-- If the text `t` is read as `v`, then it ends where it should and `P` holds. -/
def Exactly (t : Str) (v : J) (P : Prop) : Prop :=
  (∃ c t', t = c :: t' ∧ (c = 34 ∨ c = 91)) ∧ ∀ n r r', readValue n (t ++ r) = some (v, r') → r' = r ∧ P

theorem exactly_string (x : Str) : Exactly (b!"\"" ++ x ++ b!"\"") (.str x) (JsonSafe x) := by
  refine ⟨⟨34, x ++ [34], by simp, .inl rfl⟩, fun n r r' h => ?_⟩
  cases n with
  | zero => simp [readValue] at h
  | succ n =>
    have : b!"\"" ++ x ++ b!"\"" ++ r = 34 :: (x ++ 34 :: r) := by simp
    rw [this, readValue, skipWs_cons (by omega)] at h
    dsimp only at h
    rw [if_pos rfl] at h
    cases hs : readString (x ++ 34 :: r) with
    | none => rw [hs] at h; cases h
    | some q =>
      obtain ⟨s, t'⟩ := q
      rw [hs] at h
      cases h
      obtain ⟨h1, h2⟩ := readString_exact hs
      exact ⟨h2, h1⟩

theorem readElems_exactly (a : Str) (v : J) (P : Prop) (ts : List (Str × J × Prop)) (ha : Exactly a v P)
    (h : ∀ p ∈ ts, Exactly p.1 p.2.1 p.2.2) (n : Nat) (r r' : Str)
    (hr : readElems n (a ++ (ts.flatMap fun p => 44 :: p.1) ++ 93 :: r) = some (v :: ts.map (·.2.1), r')) :
    r' = r ∧ P ∧ ∀ p ∈ ts, p.2.2 := by
  induction ts generalizing a v P n with
  | nil =>
    cases n with
    | zero => simp [readElems] at hr
    | succ n =>
      rw [readElems, List.append_assoc] at hr
      cases hv : readValue n (a ++ (List.flatMap (fun p : Str × J × Prop => 44 :: p.1) [] ++ 93 :: r)) with
      | none => rw [hv] at hr; cases hr
      | some q =>
        obtain ⟨v', r1⟩ := q
        rw [hv] at hr
        dsimp only at hr
        have hv' : v' = v := by
          split at hr
          · cases hr
          split at hr
          · cases hr; rfl
          split at hr
          · split at hr
            · cases hr; rfl
            · cases hr
          · cases hr
        subst hv'
        obtain ⟨rfl, hP⟩ := ha.2 n _ _ hv
        simp only [List.flatMap_nil, List.nil_append, skipWs_cons (show 32 < 93 by omega)] at hr
        rw [if_pos trivial] at hr
        cases hr
        exact ⟨rfl, hP, by simp⟩
  | cons p ts ih =>
    cases n with
    | zero => simp [readElems] at hr
    | succ n =>
      rw [readElems, List.append_assoc] at hr
      cases hv : readValue n (a ++ (List.flatMap (fun p : Str × J × Prop => 44 :: p.1) (p :: ts) ++ 93 :: r)) with
      | none => rw [hv] at hr; cases hr
      | some q =>
        obtain ⟨v', r1⟩ := q
        rw [hv] at hr
        dsimp only at hr
        have hv' : v' = v := by
          split at hr
          · cases hr
          split at hr
          · cases hr
          split at hr
          · split at hr
            · cases hr; rfl
            · cases hr
          · cases hr
        subst hv'
        obtain ⟨rfl, hP⟩ := ha.2 n _ _ hv
        simp only [List.flatMap_cons, List.cons_append, skipWs_cons (show 32 < 44 by omega)] at hr
        rw [if_neg (by decide), if_pos trivial] at hr
        cases he : readElems n (p.1 ++ (ts.flatMap fun p => 44 :: p.1) ++ 93 :: r) with
        | none => rw [he] at hr; cases hr
        | some q =>
          obtain ⟨l, t'⟩ := q
          rw [he] at hr
          simp only [List.map_cons, Option.some.injEq, Prod.mk.injEq, List.cons.injEq, true_and] at hr
          obtain ⟨rfl, rfl⟩ := hr
          obtain ⟨h1, h2, h3⟩ := ih p.1 p.2.1 p.2.2 (h p (by simp)) (fun q hq => h q (List.mem_cons_of_mem _ hq)) n he
          refine ⟨h1, hP, fun q hq => ?_⟩
          rcases List.mem_cons.mp hq with rfl | hq
          · exact h2
          · exact h3 q hq

theorem exactly_bracket {α} (f : α → Res Str) (v : α → J) (P : α → Prop) (l : List α)
    (h : ∀ a ∈ l, (f a).Sat fun t => Exactly t (v a) (P a)) :
    (bracketList f l).Sat fun t => Exactly t (.arr (l.map v)) (∀ a ∈ l, P a) := by
  have comma : ∀ l : List α, (∀ a ∈ l, (f a).Sat fun t => Exactly t (v a) (P a)) →
      ∃ ts : List (Str × J × Prop), commaLoop f l = .ok (ts.flatMap fun p => 44 :: p.1) ∧
        (∀ p ∈ ts, Exactly p.1 p.2.1 p.2.2) ∧ ts.map (·.2.1) = l.map v ∧ ((∀ p ∈ ts, p.2.2) → ∀ a ∈ l, P a) := by
    intro l
    induction l with
    | nil => exact fun _ => ⟨[], rfl, by simp, rfl, by simp⟩
    | cons a l ih =>
      intro h
      obtain ⟨ts, h1, h2, h3, h4⟩ := ih fun x hx => h x (List.mem_cons_of_mem _ hx)
      obtain ⟨t, ht, hr⟩ := (Res.sat_iff _ _).mp (h a (by simp))
      refine ⟨(t, v a, P a) :: ts, by simp [commaLoop, ht, h1], ?_, by simp [h3], fun hp x hx => ?_⟩
      · intro p hp
        rcases List.mem_cons.mp hp with rfl | hp
        · exact hr
        · exact h2 p hp
      · rcases List.mem_cons.mp hx with rfl | hx
        · exact hp _ (List.mem_cons_self ..)
        · exact h4 (fun p hp' => hp p (List.mem_cons_of_mem _ hp')) x hx
  cases l with
  | nil =>
    refine ⟨⟨91, [93], rfl, .inr rfl⟩, fun n r r' hn => ?_⟩
    cases n with
    | zero => simp [readValue] at hn
    | succ n =>
      simp [readValue, skipWs] at hn
      exact ⟨hn.symm, by simp⟩
  | cons a l =>
    obtain ⟨ts, h1, h2, h3, h4⟩ := comma l fun x hx => h x (List.mem_cons_of_mem _ hx)
    obtain ⟨t, ht, hr⟩ := (Res.sat_iff _ _).mp (h a (by simp))
    rw [bracketList, ht, Res.ok_bind, h1, Res.ok_bind, Res.pure_eq, Res.sat_ok]
    refine ⟨⟨91, _, by simp; rfl, .inr rfl⟩, fun n r r' hn => ?_⟩
    cases n with
    | zero => simp [readValue] at hn
    | succ n =>
      have he : b!"[" ++ t ++ (ts.flatMap fun p => 44 :: p.1) ++ b!"]" ++ r =
          91 :: (t ++ (ts.flatMap fun p => 44 :: p.1) ++ 93 :: r) := by simp
      have hel := readElems_exactly t (v a) (P a) ts hr h2 n r r'
      obtain ⟨⟨c, t', rfl, hc⟩, _⟩ := hr
      rw [he, readValue, skipWs_cons (by omega)] at hn
      simp only [List.cons_append] at hel hn
      have hw : skipWs (c :: (t' ++ (ts.flatMap fun p => 44 :: p.1) ++ 93 :: r)) =
          c :: (t' ++ (ts.flatMap fun p => 44 :: p.1) ++ 93 :: r) := skipWs_cons (by omega)
      rw [hw] at hn
      simp only at hn
      rw [if_neg (by omega), if_pos trivial, if_neg (by omega)] at hn
      cases hq : readElems n (c :: (t' ++ (ts.flatMap fun p => 44 :: p.1) ++ 93 :: r)) with
      | none => rw [hq] at hn; cases hn
      | some q =>
        obtain ⟨l', t1⟩ := q
        rw [hq] at hn
        simp only [Option.some.injEq, Prod.mk.injEq, J.arr.injEq, List.map_cons] at hn
        obtain ⟨rfl, rfl⟩ := hn
        obtain ⟨g1, g2, g3⟩ := hel (by rw [hq, h3])
        refine ⟨g1, fun x hx => ?_⟩
        rcases List.mem_cons.mp hx with rfl | hx
        · exact g2
        · exact h4 g3 x hx

theorem readJson_exactly {t : Str} {v : J} {P : Prop} (h : Exactly t v P) (hr : readJson t = some v) : P := by
  unfold readJson at hr
  cases hq : readValue (2 * t.length + 1) t with
  | none => rw [hq] at hr; cases hr
  | some q =>
    obtain ⟨v', r⟩ := q
    rw [hq] at hr
    dsimp only at hr
    split at hr
    · cases hr
      exact (h.2 (2 * t.length + 1) [] r (by rw [List.append_nil]; exact hq)).2
    · cases hr

theorem jsonSyl_exactly (out : SylOutput) (txt : Syl → Str) (s : Syl) (h : out s = .ok (txt s)) :
    (jsonSyl out s).Sat fun t => Exactly t (.str (txt s)) (JsonSafe (txt s)) := by
  rw [jsonSyl, h, Res.ok_bind, Res.pure_eq, Res.sat_ok]
  exact exactly_string _

theorem jsonStr_exactly (out : SylOutput) (txt : Syl → Str) (l : SylString) (hne : l ≠ [])
    (h : ∀ s ∈ l, out s = .ok (txt s)) :
    (jsonStr out l).Sat fun t => Exactly t (.arr (l.map fun s => .str (txt s))) (∀ s ∈ l, JsonSafe (txt s)) := by
  rw [jsonStr_eq_bracket _ _ hne]
  exact exactly_bracket _ _ _ _ fun s hs => jsonSyl_exactly out txt s (h s hs)

end Thpronun
