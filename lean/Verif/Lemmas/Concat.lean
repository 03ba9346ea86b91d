import Verif.Lemmas.Shift
import Verif.Lemmas.Rules
import Verif.Lemmas.ParserReading
import Verif.Spec.Concat

/-! # Lemmas on texts put together -/

namespace Thpronun
open Res Spec

section
variable {ct : CType} {u v : U16Str} {bu bv : List Int} {look : List Nat → Option Str} {a b : Nat}

theorem get_left {i : Nat} (h : i < u.length) : (u ++ v)[i]? = u[i]? := List.getElem?_append_left h
theorem get_right (i : Nat) : (u ++ v)[i + u.length]? = v[i]? := by
  rw [List.getElem?_append_right (Nat.le_add_left ..), Nat.add_sub_cancel]

theorem textAt_left {i : Nat} (h : i < u.length) : TextAt ct (u ++ v) i ↔ TextAt ct u i := by
  unfold TextAt; rw [get_left h]
theorem textAt_right (i : Nat) : TextAt ct (u ++ v) (i + u.length) ↔ TextAt ct v i := by
  unfold TextAt; rw [get_right]

theorem textAt_lt {w : U16Str} {i : Nat} (h : TextAt ct w i) : i < w.length := by
  obtain ⟨c, hc, -⟩ := h
  exact (List.getElem?_eq_some_iff.mp hc).1

theorem piece_left {p q : Nat} (h : q ≤ u.length) : piece (u ++ v) p q = piece u p q := by
  unfold piece
  rcases Nat.lt_or_ge q p with hp | hp
  · rw [Nat.sub_eq_zero_of_le hp.le, List.take_zero, List.take_zero]
  · rw [List.drop_append_of_le_length (hp.trans h), List.take_append_of_le_length (by rw [List.length_drop]; omega)]

theorem piece_right (p q : Nat) : piece (u ++ v) (p + u.length) (q + u.length) = piece v p q := by
  unfold piece
  rw [Nat.add_comm p, List.drop_length_add_append, Nat.add_comm, Nat.add_sub_add_left]

namespace Spec.Cut
variable (C : Cut ct u v bu bv a b)
include C

theorem pos : 0 < u.length := by
  have := C.last
  cases u with
  | nil => cases this
  | cons x l => exact Nat.succ_pos _

theorem getA : u[u.length - 1]? = some a := by rw [← List.getLast?_eq_getElem?]; exact C.last
theorem getB : v[0]? = some b := by rw [← List.head?_eq_getElem?]; exact C.first
theorem vpos : 0 < v.length := (List.getElem?_eq_some_iff.mp C.getB).1

theorem textA : TextAt ct u (u.length - 1) ↔ IsText ct a := by
  unfold TextAt; rw [C.getA]
  exact ⟨fun ⟨c, h, h'⟩ => by cases h; exact h', fun h => ⟨a, rfl, h⟩⟩
theorem textB : TextAt ct v 0 ↔ IsText ct b := by
  unfold TextAt; rw [C.getB]
  exact ⟨fun ⟨c, h, h'⟩ => by cases h; exact h', fun h => ⟨b, rfl, h⟩⟩

theorem textA' : TextAt ct (u ++ v) (u.length - 1) ↔ IsText ct a := by
  rw [textAt_left (by have := C.pos; omega), C.textA]
theorem textB' : TextAt ct (u ++ v) u.length ↔ IsText ct b := by
  rw [← C.textB, ← textAt_right (u := u) (v := v) 0, Nat.zero_add]

/-- The break after a position of the left text. -/
theorem break_left {p : Nat} (hp : p < u.length) : nextBreak u bu p ≤ u.length ∧
    (nextBreak (u ++ v) (joinBreaks u bu bv) p = nextBreak u bu p ∨
     ((∀ x ∈ bu, ¬ x > (p : Int)) ∧ nextBreak u bu p = u.length ∧
      (u.length : Int) ≤ nextBreak (u ++ v) (joinBreaks u bu bv) p)) := by
  unfold nextBreak joinBreaks
  rw [List.find?_append]
  cases h : bu.find? fun b => decide (b > (p : Int)) with
  | some x => exact ⟨C.left x (List.mem_of_find?_eq_some h), .inl rfl⟩
  | none =>
    refine ⟨le_rfl, .inr ⟨fun x hx => by simpa using List.find?_eq_none.mp h x hx, rfl, ?_⟩⟩
    rw [Option.none_or]
    cases h' : (bv.map (· + (u.length : Int))).find? fun b => decide (b > (p : Int)) with
    | some x =>
      obtain ⟨y, hy, rfl⟩ := List.mem_map.mp (List.mem_of_find?_eq_some h')
      have := C.right y hy
      simp only [Option.getD_some]
      omega
    | none => simp only [Option.getD_none, List.length_append]; omega

/-- The break after a position of the right text. -/
theorem break_right (p : Nat) :
    nextBreak (u ++ v) (joinBreaks u bu bv) (p + u.length : Nat) = nextBreak v bv p + u.length := by
  unfold nextBreak joinBreaks
  rw [List.find?_append]
  have h : (bu.find? fun b => decide (b > ((p + u.length : Nat) : Int))) = none := by
    rw [List.find?_eq_none]
    intro x hx
    have := C.left x hx
    simp only [decide_eq_true_eq]
    omega
  rw [h, Option.none_or, List.find?_map]
  have hf : ((fun b => decide (b > ((p + u.length : Nat) : Int))) ∘ fun x : Int => x + (u.length : Int)) =
      fun b : Int => decide (b > (p : Int)) := by
    funext x
    simp only [Function.comp, decide_eq_decide]
    omega
  rw [hf]
  cases bv.find? fun b => decide (b > (p : Int)) with
  | some x => rfl
  | none => simp only [Option.map_none, Option.getD_none, List.length_append]; omega

theorem token_left {p t : Nat} (hp : p < u.length) :
    TokenTo ct (u ++ v) (joinBreaks u bu bv) p t ↔ TokenTo ct u bu p t := by
  obtain ⟨k1, k2⟩ := C.break_left hp
  have hlen : (u ++ v).length = u.length + v.length := List.length_append
  have hv := C.vpos
  -- both sides Thai: there is a break
  have both : IsText ct a → IsText ct b → nextBreak (u ++ v) (joinBreaks u bu bv) p = nextBreak u bu p := by
    intro ha hb
    rcases C.sep with h | h | h
    · exact absurd hb h.2
    · exact absurd ha h.1
    · rcases k2 with h' | ⟨h', -⟩
      · exact h'
      · exact absurd (by omega) (h' _ h.2.2)
  constructor
  · rintro ⟨h1, h2, h3, h4, h5⟩
    have ht : t ≤ u.length := by
      by_contra hn
      have ha := C.textA'.mp (h3 (u.length - 1) (by omega) (by omega))
      have hb := C.textB'.mp (h3 u.length (by omega) (by omega))
      rw [both ha hb] at h4
      omega
    refine ⟨h1, ht, fun i h h' => (textAt_left (by omega)).mp (h3 i h h'), ?_, ?_⟩
    · rcases k2 with h | h <;> omega
    · rcases h5 with h | ⟨h, h'⟩
      · left; rcases k2 with h' | h' <;> omega
      · rcases Nat.lt_or_ge t u.length with htl | htl
        · right
          exact ⟨htl, fun hx => h' ((textAt_left htl).mpr hx)⟩
        · left; rcases k2 with h' | h' <;> omega
  · rintro ⟨h1, h2, h3, h4, h5⟩
    refine ⟨h1, by omega, fun i h h' => (textAt_left (by omega)).mpr (h3 i h h'), by rcases k2 with h | h <;> omega, ?_⟩
    rcases h5 with h | ⟨h, h'⟩
    · rcases k2 with k2 | ⟨-, k2, k3⟩
      · left; omega
      · have htl : t = u.length := by omega
        have ha := C.textA.mp (by rw [← htl]; exact h3 (t - 1) (by omega) (by omega))
        by_cases hb : IsText ct b
        · left; rw [both ha hb]; exact h
        · right
          refine ⟨by omega, ?_⟩
          rw [htl, C.textB']
          exact hb
    · right
      exact ⟨by omega, fun hx => h' ((textAt_left h).mp hx)⟩

theorem token_right (p t : Nat) :
    TokenTo ct (u ++ v) (joinBreaks u bu bv) (p + u.length) (t + u.length) ↔ TokenTo ct v bv p t := by
  have hlen : (u ++ v).length = u.length + v.length := List.length_append
  unfold TokenTo
  rw [C.break_right, hlen, textAt_right]
  refine and_congr (by omega) (and_congr (by omega) (and_congr ?_ (and_congr ?_ (or_congr ?_ (and_congr ?_ Iff.rfl)))))
  · constructor
    · intro h i h1 h2
      exact (textAt_right i).mp (h (i + u.length) (by omega) (by omega))
    · intro h i h1 h2
      obtain ⟨j, rfl⟩ := Nat.exists_eq_add_of_le' (show u.length ≤ i by omega)
      exact (textAt_right j).mpr (h j (by omega) (by omega))
  · push_cast; omega
  · push_cast; omega
  · omega

theorem other_left {p q : Nat} (hp : p < u.length) : OtherTo ct (u ++ v) p q ↔ OtherTo ct u p q := by
  have hlen : (u ++ v).length = u.length + v.length := List.length_append
  have hv := C.vpos
  constructor
  · rintro ⟨h1, h2, h3, h4⟩
    have hq : q ≤ u.length := by
      by_contra hn
      have ha := fun h => h3 (u.length - 1) (by omega) (by omega) (C.textA'.mpr h)
      have hb := fun h => h3 u.length (by omega) (by omega) (C.textB'.mpr h)
      rcases C.sep with h | h | h
      · exact ha h.1
      · exact hb h.2
      · exact ha h.1
    refine ⟨h1, hq, fun i h h' hx => h3 i h h' ((textAt_left (by omega)).mpr hx), ?_⟩
    rcases h4 with h4 | h4
    · omega
    · rcases Nat.lt_or_ge q u.length with hl | hl
      · exact .inr ((textAt_left hl).mp h4)
      · exact .inl (by omega)
  · rintro ⟨h1, h2, h3, h4⟩
    refine ⟨h1, by omega, fun i h h' hx => h3 i h h' ((textAt_left (by omega)).mp hx), .inr ?_⟩
    rcases h4 with rfl | h4
    · rw [C.textB']
      have ha := fun h => h3 (u.length - 1) (by omega) (by omega) (C.textA.mpr h)
      rcases C.sep with h | h | h
      · exact absurd h.1 ha
      · exact h.2
      · exact h.2.1
    · exact (textAt_left (textAt_lt h4)).mpr h4

omit C in
theorem other_right (p q : Nat) : OtherTo ct (u ++ v) (p + u.length) (q + u.length) ↔ OtherTo ct v p q := by
  have hlen : (u ++ v).length = u.length + v.length := List.length_append
  unfold OtherTo
  rw [hlen, textAt_right]
  refine and_congr (by omega) (and_congr (by omega) (and_congr ?_ (or_congr (by omega) Iff.rfl)))
  constructor
  · intro h i h1 h2 hx
    exact h (i + u.length) (by omega) (by omega) ((textAt_right i).mpr hx)
  · intro h i h1 h2
    obtain ⟨j, rfl⟩ := Nat.exists_eq_add_of_le' (show u.length ≤ i by omega)
    exact fun hx => h j (by omega) (by omega) ((textAt_right j).mp hx)

omit C in
theorem word_left {p t q : Nat} {data : Str} (ht : t ≤ u.length) :
    WordAt ct (u ++ v) look p t q data ↔ WordAt ct u look p t q data := by
  have hlen : (u ++ v).length = u.length + v.length := List.length_append
  unfold WordAt
  constructor
  · rintro ⟨h1, h2, h3, h4, h5⟩
    refine ⟨h1, by omega, by rwa [piece_left (by omega)] at h3, h4, ?_⟩
    rcases h5 with h5 | ⟨c, ⟨k1, k2⟩, h5⟩
    · exact .inl h5
    · rcases Nat.lt_or_ge q t with hl | hl
      · exact .inr ⟨c, ⟨by omega, by rwa [get_left (by omega)] at k2⟩, h5⟩
      · exact .inl (by omega)
  · rintro ⟨h1, h2, h3, h4, h5⟩
    refine ⟨h1, by omega, by rwa [piece_left (by omega)], h4, ?_⟩
    rcases h5 with h5 | ⟨c, ⟨k1, k2⟩, h5⟩
    · exact .inl h5
    · exact .inr ⟨c, ⟨by omega, by rwa [get_left k1]⟩, h5⟩

omit C in
theorem word_right (p t q : Nat) (data : Str) :
    WordAt ct (u ++ v) look (p + u.length) (t + u.length) (q + u.length) data ↔ WordAt ct v look p t q data := by
  have hlen : (u ++ v).length = u.length + v.length := List.length_append
  unfold WordAt StartAt At
  rw [piece_right, hlen, get_right]
  refine and_congr (by omega) (and_congr (by omega) (and_congr Iff.rfl (and_congr (by omega) (or_congr (by omega) ?_))))
  refine exists_congr fun c => and_congr (and_congr (by omega) Iff.rfl) Iff.rfl

omit C in
theorem noWord_right (p t : Nat) :
    (∀ q data, ¬ WordAt ct (u ++ v) look (p + u.length) (t + u.length) q data) ↔ ∀ q data, ¬ WordAt ct v look p t q data := by
  constructor
  · exact fun h q data hw => h _ data ((word_right ..).mpr hw)
  · intro h q data hw
    have := hw.1
    obtain ⟨j, rfl⟩ := Nat.exists_eq_add_of_le' (show u.length ≤ q by omega)
    exact h j data ((word_right ..).mp hw)

omit C in
theorem abbr_left {p t e : Nat} (hp : p < u.length) (ht : t ≤ u.length) :
    IsAbbr ct (u ++ v) p t e ↔ IsAbbr ct u p t e := by
  have key : ∀ {w w' : U16Str}, (∀ i < u.length, w[i]? = w'[i]?) → IsAbbr ct w p t e → IsAbbr ct w' p t e := by
    intro w w' hw h
    obtain ⟨h1, h2, h3⟩ := h
    refine ⟨?_, h2, ?_⟩
    · rw [← hw (p - 1) (by omega)]; exact h1
    · rcases h3 with ⟨n, k1, k2, k3, k4⟩ | ⟨k1, k2, k3⟩
      · exact .inl ⟨n, k1, k2, fun i h h' => by rw [← hw i (by omega)]; exact k3 i h h', by rw [← hw _ (by omega)]; exact k4⟩
      · exact .inr ⟨k1, k2, by rw [← hw p hp]; exact k3⟩
  exact ⟨key fun i hi => get_left hi, key fun i hi => (get_left hi).symm⟩

/-- Abbreviations of the right text. -/
theorem abbr_right {p t e : Nat} (hst : TokenTo ct v bv p t) :
    IsAbbr ct (u ++ v) (p + u.length) (t + u.length) (e + u.length) ↔ IsAbbr ct v p t e := by
  have hshape : ((∃ n ≤ 4, e + u.length = p + u.length + n + 1 ∧
        (∀ i, p + u.length ≤ i → i < p + u.length + n → ∃ c, (u ++ v)[i]? = some c ∧ ct.isCons c = true) ∧
        (u ++ v)[p + u.length + n]? = some ch!".") ∨
      (e + u.length = p + u.length + 1 ∧ e + u.length = t + u.length ∧ ∃ c, (u ++ v)[p + u.length]? = some c ∧ ct.isCons c = true)) ↔
      ((∃ n ≤ 4, e = p + n + 1 ∧ (∀ i, p ≤ i → i < p + n → ∃ c, v[i]? = some c ∧ ct.isCons c = true) ∧
        v[p + n]? = some ch!".") ∨ (e = p + 1 ∧ e = t ∧ ∃ c, v[p]? = some c ∧ ct.isCons c = true)) := by
    rw [get_right]
    refine or_congr (exists_congr fun n => and_congr Iff.rfl (and_congr (by omega) (and_congr ?_ ?_)))
      (and_congr (by omega) (and_congr (by omega) Iff.rfl))
    · constructor
      · intro h i h1 h2
        have := h (i + u.length) (by omega) (by omega)
        rwa [get_right] at this
      · intro h i h1 h2
        obtain ⟨j, rfl⟩ := Nat.exists_eq_add_of_le' (show u.length ≤ i by omega)
        rw [get_right]
        exact h j (by omega) (by omega)
    · rw [show p + u.length + n = p + n + u.length by omega, get_right]
  constructor
  · rintro ⟨h1, h2, h3⟩
    refine ⟨?_, by omega, hshape.mp h3⟩
    rcases p with _ | p
    · exact .inl rfl
    · rw [show p + 1 + u.length - 1 = p + u.length by omega, get_right] at h1
      rw [Nat.add_sub_cancel]
      rcases h1 with h1 | h1
      · omega
      · exact .inr h1
  · intro h
    have h' := h
    obtain ⟨h1, h2, h3⟩ := h
    refine ⟨?_, by omega, hshape.mpr h3⟩
    rcases p with _ | p
    · have hb : IsText ct b := C.textB.mp (hst.2.2.1 0 le_rfl hst.1)
      rw [show 0 + u.length - 1 = u.length - 1 by omega, get_left (by have := C.pos; omega), C.getA]
      rcases C.abbr hb with rfl | rfl | h
      · exact .inr (.inl rfl)
      · exact .inr (.inr rfl)
      · exact absurd h' (h t e hst)
    · rw [show p + 1 + u.length - 1 = p + u.length by omega, get_right]
      rw [Nat.add_sub_cancel] at h1
      rcases h1 with h1 | h1
      · omega
      · exact .inr h1

theorem noAbbr_right {p t : Nat} (hst : TokenTo ct v bv p t) :
    (∀ e, ¬ IsAbbr ct (u ++ v) (p + u.length) (t + u.length) e) ↔ ∀ e, ¬ IsAbbr ct v p t e := by
  constructor
  · exact fun h e ha => h _ ((C.abbr_right hst).mpr ha)
  · intro h e ha
    have := ha.lt
    obtain ⟨j, rfl⟩ := Nat.exists_eq_add_of_le' (show u.length ≤ e by omega)
    exact h j ((C.abbr_right hst).mp ha)

omit C in
theorem names_left {p q : Nat} {new : List (Entry Syl)} (hp : p < u.length) (hq : q ≤ u.length) :
    AbbrNames (u ++ v) p q new ↔ AbbrNames u p q new := by
  unfold AbbrNames
  rw [get_left hp, piece_left hq]

theorem moved_left {t : Nat} (ht : t ≤ u.length) : Moved (u ++ v) u t 0 := by
  intro i c
  unfold At
  simp only [Nat.add_zero]
  exact and_congr_right fun h => by rw [get_left (by omega)]

omit C in
theorem moved_right (t : Nat) : Moved (u ++ v) v t u.length := by
  intro i c
  unfold At
  rw [get_right]
  exact and_congr (by omega) Iff.rfl

omit C in
theorem shift0_o (o : Onset) : o.shift 0 = o := rfl
omit C in
theorem shift0_r (r : Rime) : r.shift 0 = r := rfl

theorem spelled_left {p t : Nat} (hp : p < t) (ht : t ≤ u.length) (htok : TextAt ct u p) (l : Bool) (o : Onset) (r : Rime) :
    Spelled ct (u ++ v) t p l o r ↔ Spelled ct u t p l o r := by
  have h := spelled_shift (ct := ct) (i := p) (C.moved_left ht) (by rw [Nat.add_zero, get_left (by omega)]) hp ?_ l o r
  · simpa only [Nat.add_zero, shift0_o, shift0_r] using h
  · intro x hx hl hne htp c hc
    rw [Nat.add_zero]
    rcases Nat.lt_or_ge (p + 1) u.length with h | h
    · rw [get_left h]
    · have hpu : p + 1 = u.length := by omega
      have hxa : x = a := by
        have := C.getA
        rw [← hpu, Nat.add_sub_cancel, hx] at this
        exact Option.some.inj this
      have hb := C.lead (C.textA.mp (by rw [← hpu, Nat.add_sub_cancel]; exact htok)) (hxa ▸ hl) (hxa ▸ hne)
      rw [hpu, List.getElem?_eq_none (Nat.le_refl _)]
      constructor
      · intro h
        have h0 := get_right (u := u) (v := v) 0
        rw [Nat.zero_add, h, C.getB] at h0
        cases h0
        rw [hb] at hc
        cases hc
      · intro h; cases h

omit C in
theorem spelled_right {p t : Nat} (hp : p < t) (l : Bool) (o : Onset) (r : Rime) :
    Spelled ct (u ++ v) (t + u.length) (p + u.length) l (o.shift u.length) (r.shift u.length) ↔ Spelled ct v t p l o r :=
  spelled_shift (moved_right t) (get_right p) hp (fun _ _ _ _ _ c _ => by rw [get_right]) l o r

/-! ## Steps -/

/-- A step in the left text. -/
theorem rule_left {p : Nat} {l : Bool} {es : List (Entry Syl)} {c' : Config} (hp : p < u.length) :
    Rule ct (u ++ v) look (joinBreaks u bu bv) ⟨p, l, es⟩ c' ↔ Rule ct u look bu ⟨p, l, es⟩ c' := by
  have tl : ∀ {t}, TokenTo ct u bu p t → t ≤ u.length := fun h => h.2.1
  constructor
  · intro h
    cases h with
    | other h =>
      have h := (C.other_left hp).mp h
      rw [piece_left h.2.1]
      exact .other h
    | word h1 h2 h3 h4 =>
      have h1 := (C.token_left hp).mp h1
      exact .word h1 ((word_left (tl h1)).mp h2) h3 h4
    | abbr h1 h2 h3 h4 =>
      have h1 := (C.token_left hp).mp h1
      have h3 := (abbr_left hp (tl h1)).mp h3
      exact .abbr h1 (fun q data h => h2 q data ((word_left (tl h1)).mpr h)) h3
        ((names_left hp (h3.le.trans (tl h1))).mp h4)
    | syl h1 h2 h3 h4 =>
      have h1 := (C.token_left hp).mp h1
      exact .syl h1 (fun q data h => h2 q data ((word_left (tl h1)).mpr h))
        (fun q h => h3 q ((abbr_left hp (tl h1)).mpr h)) ((C.spelled_left h1.1 (tl h1) (h1.2.2.1 p (Nat.le_refl p) h1.1) ..).mp h4)
    | dot h1 h2 h3 h4 =>
      have h1 := (C.token_left hp).mp h1
      exact .dot h1 (fun q data h => h2 q data ((word_left (tl h1)).mpr h))
        (fun q h => h3 q ((abbr_left hp (tl h1)).mpr h)) (by rwa [get_left hp] at h4)
  · intro h
    cases h with
    | other h =>
      rw [← piece_left (v := v) h.2.1]
      exact .other ((C.other_left hp).mpr h)
    | word h1 h2 h3 h4 => exact .word ((C.token_left hp).mpr h1) ((word_left (tl h1)).mpr h2) h3 h4
    | abbr h1 h2 h3 h4 =>
      exact .abbr ((C.token_left hp).mpr h1) (fun q data h => h2 q data ((word_left (tl h1)).mp h))
        ((abbr_left hp (tl h1)).mpr h3) ((names_left hp (h3.le.trans (tl h1))).mpr h4)
    | syl h1 h2 h3 h4 =>
      exact .syl ((C.token_left hp).mpr h1) (fun q data h => h2 q data ((word_left (tl h1)).mp h))
        (fun q h => h3 q ((abbr_left hp (tl h1)).mp h)) ((C.spelled_left h1.1 (tl h1) (h1.2.2.1 p (Nat.le_refl p) h1.1) ..).mpr h4)
    | dot h1 h2 h3 h4 =>
      exact .dot ((C.token_left hp).mpr h1) (fun q data h => h2 q data ((word_left (tl h1)).mp h))
        (fun q h => h3 q ((abbr_left hp (tl h1)).mp h)) (by rwa [get_left hp])


omit C in
theorem movedEnd_nat (n p : Nat) : movedEnd n (p : Int) = ((p + n : Nat) : Int) := by
  unfold movedEnd; rw [if_neg (by omega)]; push_cast; rfl

omit C in
theorem movedEnd_movedEnd (n p : Nat) (e : Int) : movedEnd n (movedEnd p e) = movedEnd (p + n) e := by
  unfold movedEnd
  by_cases h : e < 0
  · rw [if_pos h, if_pos h, if_pos (by omega)]; push_cast; omega
  · rw [if_neg h, if_neg h, if_neg (by omega)]; push_cast; omega

omit C in
theorem movedEnd_span (n p q : Nat) (h : 0 < q) : movedEnd n (spanPos p q) = spanPos (p + n : Nat) (q + n : Nat) := by
  unfold movedEnd spanPos
  rw [if_pos (by omega)]
  push_cast
  omega

omit C in
theorem later_plain (n p q : Nat) (s : U16Str) :
    later n ⟨p, q, plainText q s⟩ = ⟨(p + n : Nat), (q + n : Nat), plainText (q + n : Nat) s⟩ := by
  simp only [later, movedEnd_nat, plainText]

omit C in
theorem later_word (n p : Nat) (str : SylString) (m : Int) :
    (wordEdges p m str).map (later n) = wordEdges (p + n) (movedEnd n m) str := by
  induction str generalizing m with
  | nil => rfl
  | cons s ss ih => simp only [wordEdges, List.map_cons, ih, later, movedEnd_movedEnd]

omit C in
theorem later_spelled (n p : Nat) (o : Onset) (r : Rime) (h : 0 < r.stop) :
    (spelledEdges p o r).map (later n) = spelledEdges (p + n) (o.shift n) (r.shift n) := by
  have hs : (r.shift n).stop = r.stop + n := rfl
  have ho : (o.shift n).pre = o.pre := rfl
  unfold spelledEdges
  rw [ho]
  cases o.pre with
  | none => simp only [List.map_cons, List.map_nil, later, movedEnd_nat, hs, spoken, Onset.shift, Rime.shift]
  | some pre =>
    simp only [List.map_cons, List.map_nil, later, movedEnd_nat, hs, spoken, Onset.shift, Rime.shift, movedEnd_span n p _ h]

/-- The edge `n` positions earlier (of an edge between nodes of the text). -/
def earlier (n : Nat) (e : Entry Syl) : Entry Syl :=
  ⟨e.key - n, e.target - n, { e.val with endPos := e.val.endPos - n }⟩

omit C in
theorem names_right {n p : Nat} {e : Int} {cs : U16Str} {new : List (Entry Syl)} (he : 0 ≤ e)
    (h : IsNames p e cs new) : IsNames (p + n) (e + n) cs (new.map (later n)) := by
  obtain ⟨h1, h2⟩ := h
  refine ⟨by rw [List.length_map, h1], fun i c x hi hx => ?_⟩
  rw [List.getElem?_map, Option.map_eq_some_iff] at hx
  obtain ⟨y, hy, rfl⟩ := hx
  obtain ⟨k1, k2, snd, cls, k3, k4, k5⟩ := h2 i c y hi hy
  have ht : (later n y).target = y.target + n := by
    simp only [later]
    rw [k2]
    unfold movedEnd
    split <;> split <;> omega
  refine ⟨?_, ?_, snd, cls, k3, k4, ?_⟩
  · simp only [later]; rw [k1, movedEnd_nat]; push_cast; omega
  · rw [ht, k2]; split <;> push_cast <;> omega
  · rw [ht]
    simp only [later]
    rw [k5]
    simp only [Syl.mk.injEq, true_and]
    have : movedEnd n y.target = y.target + n := ht
    exact this

omit C in
theorem names_back {n p : Nat} {e : Int} {cs : U16Str} {new : List (Entry Syl)} (he : 0 ≤ e)
    (h : IsNames (p + n) (e + n) cs new) : IsNames p e cs (new.map (earlier n)) ∧ (new.map (earlier n)).map (later n) = new := by
  obtain ⟨h1, h2⟩ := h
  refine ⟨⟨by rw [List.length_map, h1], fun i c x hi hx => ?_⟩, ?_⟩
  · rw [List.getElem?_map, Option.map_eq_some_iff] at hx
    obtain ⟨y, hy, rfl⟩ := hx
    obtain ⟨k1, k2, snd, cls, k3, k4, k5⟩ := h2 i c y hi hy
    refine ⟨?_, ?_, snd, cls, k3, k4, ?_⟩
    · simp only [earlier]; rw [k1]; push_cast; omega
    · simp only [earlier]; rw [k2]; split <;> push_cast <;> omega
    · simp only [earlier]; rw [k5]
  · rw [List.map_map]
    conv_rhs => rw [← List.map_id new]
    refine List.map_congr_left fun y hy => ?_
    obtain ⟨i, hi⟩ := List.mem_iff_getElem?.mp hy
    have hlt : i < cs.length := by rw [← h1]; exact (List.getElem?_eq_some_iff.mp hi).1
    obtain ⟨k1, k2, snd, cls, -, -, k5⟩ := h2 i _ y (List.getElem?_eq_getElem hlt) hi
    have hk : ¬ y.key - (n : Int) < 0 := by rw [k1]; push_cast; omega
    have ht : ¬ y.target - (n : Int) < 0 := by
      rw [k2]; split
      · omega
      · push_cast; omega
    have hv : y.val.endPos = y.target := by rw [k5]
    obtain ⟨key, tgt, val⟩ := y
    obtain ⟨a1, a2, a3, a4, a5, ep⟩ := val
    simp only at hk ht hv
    subst hv
    simp only [Function.comp, later, earlier, movedEnd, if_neg hk, if_neg ht, id, Int.sub_add_cancel]

omit C in
theorem abbrNames_right {p q : Nat} {new : List (Entry Syl)} :
    AbbrNames (u ++ v) (p + u.length) (q + u.length) new ↔
      ∃ new', AbbrNames v p q new' ∧ new = new'.map (later u.length) := by
  unfold AbbrNames
  rw [get_right, piece_right]
  constructor
  · rintro (⟨h1, rfl⟩ | ⟨h1, cs, h2, h3⟩)
    · exact ⟨_, .inl ⟨h1, rfl⟩, by rw [List.map_singleton, later_plain]⟩
    · rw [show (((q + u.length : Nat) : Int)) = (q : Int) + (u.length : Nat) by push_cast; rfl] at h3
      obtain ⟨k1, k2⟩ := names_back (by omega) h3
      exact ⟨_, .inr ⟨h1, cs, h2, k1⟩, k2.symm⟩
  · rintro ⟨new', ⟨h1, rfl⟩ | ⟨h1, cs, h2, h3⟩, rfl⟩
    · exact .inl ⟨h1, by rw [List.map_singleton, later_plain]⟩
    · refine .inr ⟨h1, cs, h2, ?_⟩
      have := names_right (n := u.length) (by omega) h3
      push_cast
      exact this

omit C in
theorem later_stretch (n p : Nat) (e : Entry Syl) : stretch (p + n) (later n e) = later n (stretch p e) := by
  have key : (later n e).target = ((p + n : Nat) : Int) ↔ e.target = (p : Int) := by
    simp only [later]
    unfold movedEnd
    split <;> push_cast <;> omega
  unfold stretch
  by_cases h : e.target = (p : Int)
  · rw [if_pos (key.mpr h), if_pos h]
    simp only [later, Syl.setEndPos, Entry.mk.injEq, Syl.mk.injEq, true_and]
    have : movedEnd n ((p : Int) + 1) = ((p + n : Nat) : Int) + 1 := by
      unfold movedEnd; rw [if_neg (by omega)]; push_cast; omega
    exact ⟨this.symm, this.symm⟩
  · rw [if_neg (fun h' => h (key.mp h')), if_neg h]

/-- The configuration of the whole text after a reading of the left text and a partial reading of the right one. -/
def after (n : Nat) (es : List (Entry Syl)) (c : Config) : Config :=
  ⟨c.pos + n, c.linked, es ++ c.edges.map (later n)⟩

/-- A step in the right text. -/
theorem rule_right (hct : ct.Ok) {es : List (Entry Syl)} {c : Config} {c' : Config}
    (hes : ∀ e ∈ es, ∀ m : Nat, e.target = m → m ≤ u.length) :
    Rule ct (u ++ v) look (joinBreaks u bu bv) (after u.length es c) c' ↔
      ∃ c2, Rule ct v look bv c c2 ∧ c' = after u.length es c2 := by
  obtain ⟨p, l, es2⟩ := c
  have tok : ∀ {t}, TokenTo ct (u ++ v) (joinBreaks u bu bv) (p + u.length) t →
      ∃ t', t = t' + u.length ∧ TokenTo ct v bv p t' := by
    intro t h
    obtain ⟨t', rfl⟩ := Nat.exists_eq_add_of_le' (show u.length ≤ t by have := h.1; omega)
    exact ⟨t', rfl, (C.token_right ..).mp h⟩
  -- periods at the beginning of the right text are abbreviations
  have nodot : ∀ {t}, TokenTo ct v bv 0 t → v[0]? = some ch!"." → IsAbbr ct v 0 t 1 := fun h1 h2 =>
    ⟨.inl rfl, h1.1, .inl ⟨0, by omega, rfl, fun i h h' => absurd h' (by omega), h2⟩⟩
  have dots : 0 < p → (es ++ es2.map (later u.length)).map (stretch (p + u.length)) =
      es ++ (es2.map (stretch p)).map (later u.length) := by
    intro hp
    rw [List.map_append, List.map_map, List.map_map]
    congr 1
    · conv_rhs => rw [← List.map_id es]
      refine List.map_congr_left fun e he => ?_
      unfold stretch
      rw [if_neg]
      · rfl
      · intro ht
        have := hes e he _ ht
        omega
    · exact List.map_congr_left fun e _ => later_stretch ..
  unfold after
  constructor
  · intro h
    cases h with
    | @other _ _ _ q h =>
      dsimp only at h ⊢
      obtain ⟨q, rfl⟩ := Nat.exists_eq_add_of_le' (show u.length ≤ q by have := h.1; omega)
      refine ⟨_, .other ((other_right ..).mp h), ?_⟩
      simp only [List.map_append, List.map_cons, List.map_nil, later_plain, piece_right, List.append_assoc]
    | @word _ _ _ _ q _ _ _ h1 h2 h3 h4 =>
      obtain ⟨t, ht, k⟩ := tok h1
      subst ht
      clear h1
      rename' k => h1
      dsimp only at h1 h2 h3 h4 ⊢
      obtain ⟨q, rfl⟩ := Nat.exists_eq_add_of_le' (show u.length ≤ q by have := h2.1; omega)
      refine ⟨_, .word h1 ((word_right ..).mp h2) h3 h4, ?_⟩
      simp only [List.map_append, later_word, movedEnd_nat, List.append_assoc]
    | @abbr _ _ _ _ q _ h1 h2 h3 h4 =>
      obtain ⟨t, ht, k⟩ := tok h1
      subst ht
      clear h1
      rename' k => h1
      dsimp only at h1 h2 h3 h4 ⊢
      obtain ⟨q, rfl⟩ := Nat.exists_eq_add_of_le' (show u.length ≤ q by have := h3.lt; omega)
      obtain ⟨new, h5, rfl⟩ := abbrNames_right.mp h4
      refine ⟨_, .abbr h1 ((noWord_right ..).mp h2) ((C.abbr_right h1).mp h3) h5, ?_⟩
      simp only [List.map_append, List.append_assoc]
    | @syl _ _ _ _ o r h1 h2 h3 h4 =>
      obtain ⟨t, ht, k⟩ := tok h1
      subst ht
      clear h1
      rename' k => h1
      dsimp only at h1 h2 h3 h4 ⊢
      obtain ⟨k1, k2⟩ := spelled_ge h4
      have ho : ∃ o' : Onset, o = o'.shift u.length :=
        ⟨{ o with stop := o.stop - u.length }, by simp only [Onset.shift]; rw [Nat.sub_add_cancel (by omega)]⟩
      have hr : ∃ r' : Rime, r = r'.shift u.length :=
        ⟨{ r with stop := r.stop - u.length }, by simp only [Rime.shift]; rw [Nat.sub_add_cancel (by omega)]⟩
      obtain ⟨o, rfl⟩ := ho
      obtain ⟨r, rfl⟩ := hr
      have h4 := (spelled_right h1.1 ..).mp h4
      have R : Rule ct v look bv ⟨p, l, es2⟩ _ := .syl h1 ((noWord_right ..).mp h2) ((C.noAbbr_right h1).mp h3) h4
      refine ⟨_, R, ?_⟩
      have hr : 0 < r.stop := Nat.lt_of_le_of_lt (Nat.zero_le p) (((rule_iff hct).mp R).lt hct).1
      simp only [List.map_append, later_spelled _ _ _ _ hr, List.append_assoc]
      rfl
    | dot h1 h2 h3 h4 =>
      obtain ⟨t, ht, k⟩ := tok h1
      subst ht
      clear h1
      rename' k => h1
      dsimp only at h1 h2 h3 h4 ⊢
      rw [get_right] at h4
      have h3 := (C.noAbbr_right h1).mp h3
      have hp : 0 < p := by
        rcases Nat.eq_zero_or_pos p with rfl | h
        · exact absurd (nodot h1 h4) (h3 1)
        · exact h
      refine ⟨_, .dot h1 ((noWord_right ..).mp h2) h3 h4, ?_⟩
      simp only [dots hp, Config.mk.injEq, and_true]
      omega
  · rintro ⟨c2, h, rfl⟩
    cases h with
    | @other _ _ _ q h =>
      have := Rule.other (look := look) (brk := joinBreaks u bu bv) (l := l) (es := es ++ es2.map (later u.length))
        ((other_right (u := u) ..).mpr h)
      simpa only [List.map_append, List.map_cons, List.map_nil, later_plain, piece_right, List.append_assoc] using this
    | word h1 h2 h3 h4 =>
      have := Rule.word (l := l) (es := es ++ es2.map (later u.length)) ((C.token_right ..).mpr h1)
        ((word_right (u := u) ..).mpr h2) h3 h4
      simpa only [List.map_append, later_word, movedEnd_nat, List.append_assoc] using this
    | abbr h1 h2 h3 h4 =>
      have := Rule.abbr (l := l) (es := es ++ es2.map (later u.length)) ((C.token_right ..).mpr h1)
        ((noWord_right (u := u) ..).mpr h2) ((C.abbr_right h1).mpr h3) (abbrNames_right.mpr ⟨_, h4, rfl⟩)
      simpa only [List.map_append, List.append_assoc] using this
    | syl h1 h2 h3 h4 =>
      have R : Rule ct v look bv ⟨p, l, es2⟩ _ := .syl h1 h2 h3 h4
      have hr := Nat.lt_of_le_of_lt (Nat.zero_le p) (((rule_iff hct).mp R).lt hct).1
      have := Rule.syl (l := l) (es := es ++ es2.map (later u.length)) ((C.token_right ..).mpr h1)
        ((noWord_right (u := u) ..).mpr h2) ((C.noAbbr_right h1).mpr h3) ((spelled_right h1.1 ..).mpr h4)
      simp only [List.map_append, later_spelled _ _ _ _ hr]
      simp only [List.append_assoc] at this
      exact this
    | dot h1 h2 h3 h4 =>
      have hp : 0 < p := by
        rcases Nat.eq_zero_or_pos p with rfl | h
        · exact absurd (nodot h1 h4) (h3 1)
        · exact h
      have := Rule.dot (l := l) (es := es ++ es2.map (later u.length)) ((C.token_right ..).mpr h1)
        ((noWord_right (u := u) ..).mpr h2) ((C.noAbbr_right h1).mpr h3) (by rw [get_right]; exact h4)
      rw [dots hp, show p + u.length + 1 = p + 1 + u.length by omega] at this
      exact this


/-! ## Readings -/

omit C in
/-- Where a final consonant begins the next syllable too, a consonant stands. -/
theorem linked_cons (hct : ct.Ok) {w : U16Str} {brk : List Int} {c : Config}
    (h : Relation.ReflTransGen (Rule ct w look brk) ⟨0, false, []⟩ c) :
    c.linked = true → ∃ x, w[c.pos]? = some x ∧ ct.isCons x = true := by
  induction h with
  | refl => intro h; cases h
  | @tail c c' _ hs ih =>
    intro hl
    cases (rule_iff hct).mp hs with
    | @gap p l es q h =>
      obtain ⟨x, hx, hc⟩ := ih hl
      exact absurd ⟨x, hx, .inl hc⟩ ((otherTo_iff.mpr h).2.2.1 p (Nat.le_refl p) (otherTo_iff.mpr h).1)
    | dict => cases hl
    | abbr => cases hl
    | syl h1 h2 hc hg he =>
      obtain ⟨x, _, hx, hc, -⟩ := ((grammar_ok hct h1.lt h1.le hg _ he).1.link hl).2
      exact ⟨x, hx, hc⟩
    | dot h1 h2 h4 =>
      obtain ⟨x, hx, hc⟩ := ih hl
      dsimp only at hx h4
      rw [h4] at hx
      cases hx
      have := hct.cons _ hc
      omega

omit C in
theorem rules_deriv (hct : ct.Ok) {w : U16Str} {brk : List Int} {c : Config} :
    Relation.ReflTransGen (Rule ct w look brk) ⟨0, false, []⟩ c ↔ Deriv ct w look brk c := by
  have : Rule ct w look brk = Step ct w look brk := by
    funext c c'; exact propext (rule_iff hct)
  rw [Deriv, this]

omit C in
/-- The edges of a partial reading lead up to its position. -/
theorem targets_le (hct : ct.Ok) (hg : GoodLook look) {w : U16Str} {brk : List Int} {c : Config}
    (h : Relation.ReflTransGen (Rule ct w look brk) ⟨0, false, []⟩ c) :
    ∀ e ∈ c.edges, ∀ m : Nat, e.target = m → m ≤ c.pos := by
  intro e he m hm
  have := ((deriv_inv hct hg ((rules_deriv hct).mp h)).chain.mem he).2.2
  rw [hm] at this
  unfold place at this
  rw [if_neg (by omega), if_neg (by omega)] at this
  omega

omit C in
theorem reading_end (hct : ct.Ok) {w : U16Str} {brk : List Int} {es : List (Entry Syl)} :
    RuleReading ct w look brk es ↔
      Relation.ReflTransGen (Rule ct w look brk) ⟨0, false, []⟩ ⟨w.length, false, es⟩ := by
  constructor
  · rintro ⟨c, h, hl, rfl⟩
    have hp := deriv_pos hct ((rules_deriv hct).mp h)
    have hl' : c.linked = false := by
      cases hb : c.linked with
      | false => rfl
      | true =>
        obtain ⟨x, hx, -⟩ := linked_cons hct h hb
        rw [List.getElem?_eq_none hl] at hx
        cases hx
    obtain ⟨p, l, es⟩ := c
    dsimp only at hl hp hl'
    obtain rfl : p = w.length := by omega
    rw [hl'] at h
    exact h
  · exact fun h => ⟨_, h, Nat.le_refl _, rfl⟩

theorem deriv_split (hct : ct.Ok) (hg : GoodLook look) {c : Config}
    (h : Relation.ReflTransGen (Rule ct (u ++ v) look (joinBreaks u bu bv)) ⟨0, false, []⟩ c) :
    (c.pos ≤ u.length ∧ Relation.ReflTransGen (Rule ct u look bu) ⟨0, false, []⟩ c) ∨
    ∃ es c2, RuleReading ct u look bu es ∧ Relation.ReflTransGen (Rule ct v look bv) ⟨0, false, []⟩ c2 ∧
      c = after u.length es c2 := by
  have right : ∀ {es c2 c'}, RuleReading ct u look bu es →
      Relation.ReflTransGen (Rule ct v look bv) ⟨0, false, []⟩ c2 →
      Rule ct (u ++ v) look (joinBreaks u bu bv) (after u.length es c2) c' →
      ∃ c3, Relation.ReflTransGen (Rule ct v look bv) ⟨0, false, []⟩ c3 ∧ c' = after u.length es c3 := by
    intro es c2 c' h1 h2 h3
    obtain ⟨c3, h4, rfl⟩ := (C.rule_right hct (targets_le hct hg ((reading_end hct).mp h1))).mp h3
    exact ⟨c3, h2.tail h4, rfl⟩
  induction h with
  | refl => exact .inl ⟨Nat.zero_le _, .refl⟩
  | @tail c c' _ hs ih =>
    rcases ih with ⟨h1, h2⟩ | ⟨es, c2, h1, h2, rfl⟩
    · rcases Nat.lt_or_eq_of_le h1 with h1 | h1
      · have hs := (C.rule_left h1).mp hs
        exact .inl ⟨(((rule_iff hct).mp hs).lt hct).2, h2.tail hs⟩
      · have hr : RuleReading ct u look bu c.edges := ⟨c, h2, Nat.le_of_eq h1.symm, rfl⟩
        have hc : c = after u.length c.edges ⟨0, false, []⟩ := by
          obtain ⟨p, l, es⟩ := c
          dsimp only at h1
          subst h1
          have hl : l = false := by
            cases l with
            | false => rfl
            | true =>
              obtain ⟨x, hx, -⟩ := linked_cons hct h2 rfl
              rw [List.getElem?_eq_none (Nat.le_refl _)] at hx
              cases hx
          subst hl
          simp only [after, List.map_nil, List.append_nil, Nat.zero_add]
        rw [hc] at hs
        obtain ⟨c3, h3, h4⟩ := right hr .refl hs
        exact .inr ⟨_, c3, hr, h3, h4⟩
    · obtain ⟨c3, h3, h4⟩ := right h1 h2 hs
      exact .inr ⟨_, c3, h1, h3, h4⟩

theorem deriv_join (hct : ct.Ok) (hg : GoodLook look) {es : List (Entry Syl)} {c2 : Config}
    (h1 : RuleReading ct u look bu es) (h2 : Relation.ReflTransGen (Rule ct v look bv) ⟨0, false, []⟩ c2) :
    Relation.ReflTransGen (Rule ct (u ++ v) look (joinBreaks u bu bv)) ⟨0, false, []⟩ (after u.length es c2) := by
  have h1 := (reading_end hct).mp h1
  have left : ∀ {c}, Relation.ReflTransGen (Rule ct u look bu) ⟨0, false, []⟩ c →
      Relation.ReflTransGen (Rule ct (u ++ v) look (joinBreaks u bu bv)) ⟨0, false, []⟩ c := by
    intro c h
    induction h with
    | refl => exact .refl
    | @tail c c' _ hs ih =>
      have h := ((rule_iff hct).mp hs).lt hct
      exact ih.tail ((C.rule_left (Nat.lt_of_lt_of_le h.1 h.2)).mpr hs)
  have : Relation.ReflTransGen (Rule ct (u ++ v) look (joinBreaks u bu bv)) (after u.length es ⟨0, false, []⟩)
      (after u.length es c2) := by
    induction h2 with
    | refl => exact .refl
    | tail _ hs ih => exact ih.tail ((C.rule_right hct (targets_le hct hg h1)).mpr ⟨_, hs, rfl⟩)
  refine (left h1).trans ?_
  simpa only [after, List.map_nil, List.append_nil, Nat.zero_add] using this

/-- The readings of two texts put together. -/
theorem readings (hct : ct.Ok) (hg : GoodLook look) (es : List (Entry Syl)) :
    RuleReading ct (u ++ v) look (joinBreaks u bu bv) es ↔
      ∃ es1 es2, RuleReading ct u look bu es1 ∧ RuleReading ct v look bv es2 ∧ es = es1 ++ es2.map (later u.length) := by
  constructor
  · rintro ⟨c, h, hl, rfl⟩
    have hv : 0 < v.length := by
      cases v with
      | nil => have := C.first; cases this
      | cons => exact Nat.succ_pos _
    rw [List.length_append] at hl
    rcases C.deriv_split hct hg h with ⟨h1, -⟩ | ⟨es, c2, h1, h2, rfl⟩
    · omega
    · refine ⟨es, c2.edges, h1, ⟨c2, h2, ?_, rfl⟩, rfl⟩
      simp only [after] at hl
      omega
  · rintro ⟨es1, es2, h1, ⟨c2, h2, hl, rfl⟩, rfl⟩
    refine ⟨_, C.deriv_join hct hg h1 h2, ?_, rfl⟩
    simp only [after, List.length_append]
    omega

/-- A partial reading of the whole that has come to the right text. -/
theorem deriv_right (hct : ct.Ok) (hg : GoodLook look) {c : Config}
    (h : Relation.ReflTransGen (Rule ct (u ++ v) look (joinBreaks u bu bv)) ⟨0, false, []⟩ c) (hp : u.length ≤ c.pos) :
    ∃ es c2, RuleReading ct u look bu es ∧ Relation.ReflTransGen (Rule ct v look bv) ⟨0, false, []⟩ c2 ∧
      c = after u.length es c2 := by
  rcases C.deriv_split hct hg h with ⟨h1, h2⟩ | h
  · have hr : RuleReading ct u look bu c.edges := ⟨c, h2, hp, rfl⟩
    refine ⟨c.edges, ⟨0, false, []⟩, hr, .refl, ?_⟩
    obtain ⟨p, l, es⟩ := c
    dsimp only at h1 hp
    obtain rfl : p = u.length := by omega
    have hl : l = false := by
      cases l with
      | false => rfl
      | true =>
        obtain ⟨x, hx, -⟩ := linked_cons hct h2 rfl
        rw [List.getElem?_eq_none (Nat.le_refl _)] at hx
        cases hx
    subst hl
    simp only [after, List.map_nil, List.append_nil, Nat.zero_add]
  · exact h

/-- If the search gets stuck, it does so in the right text. -/
theorem stuck_right (hct : ct.Ok) (hg : GoodLook look) {c : Config}
    (h : Stuck ct (u ++ v) look (joinBreaks u bu bv) c) : ∃ c2, Stuck ct v look bv c2 := by
  obtain ⟨hder, hlen, t, x, hst, hpl, hx, hld, hne⟩ := h
  have hv : 0 < v.length := by
    cases v with
    | nil => have := C.first; cases this
    | cons => exact Nat.succ_pos _
  rw [List.length_append] at hlen
  obtain ⟨es, c2, -, h2, rfl⟩ := C.deriv_right hct hg ((rules_deriv hct).mpr hder) (by omega)
  simp only [after] at hlen hst hpl hx
  have htok := tokenTo_iff.mpr hst
  obtain ⟨t', rfl⟩ := Nat.exists_eq_add_of_le' (show u.length ≤ t by have := htok.1; omega)
  have htok' := (C.token_right ..).mp htok
  have hst' := tokenTo_iff.mp htok'
  rw [get_right] at hx
  refine ⟨c2, (rules_deriv hct).mp h2, by omega, t', x, hst', ⟨?_, fun ⟨q, hq⟩ => ?_⟩, hx, hld, hne⟩
  · exact (noWord_iff hst'.le).mp ((noWord_right ..).mp ((noWord_iff hst.le).mpr hpl.1))
  · exact (C.noAbbr_right htok').mp (fun q hq => hpl.2 ⟨q, hq⟩) q hq

end Spec.Cut
end
end Thpronun
