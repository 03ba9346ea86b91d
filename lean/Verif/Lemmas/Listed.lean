import Verif.Lemmas.Route
import Verif.Spec.Listed

/-! # Lemmas on the readings among the listed pronunciations -/

namespace Thpronun
open Res Spec DAG

variable {ct : CType} {w : U16Str} {look : List Nat → Option Str} {brk : List Int}

theorem spelled_emit (hct : ct.Ok) {p t : Nat} {l : Bool} {o : Onset} {r : Rime} (h1 : TokenTo ct w brk p t)
    (h4 : Spelled ct w t p l o r) : p < r.stop ∧ r.stop ≤ p + 40 ∧
      (r.linked = true → Linkable ct w r.stop) := by
  have h1 := tokenTo_iff.mp h1
  obtain ⟨c, hc, h4'⟩ := id h4
  rcases grammar_total hct (c := c) l h1.lt h1.le with ⟨ems, hg⟩ | ⟨-, hld, hne, hlen⟩
  · have := (satP_iff _ _).mp (grammar_spelled (t := t) (l := l) hct hc) ems hg
    obtain ⟨e, he, h⟩ := this.2 o r h4
    have k := (grammar_ok hct h1.lt h1.le hg e he).1
    obtain ⟨k1, k2, -⟩ := emitOf_edges (p := p) h k.vowel
    rw [← k1, ← k2]
    exact ⟨k.lo, k.span, fun hl => (k.link hl).2⟩
  · exfalso
    have hld' := hct.ld c hld
    rcases h4' with ⟨h, -⟩ | ⟨h, -⟩ | ⟨-, -, ⟨_, _, _, h, -⟩, -⟩ | ⟨h, -⟩
    · have := hct.cons c h; omega
    · exact hne h
    · have := (List.getElem?_eq_some_iff.mp h).1
      omega
    · omega

/-- What can be read after a linking syllable can be read anywhere. -/
theorem spelled_unlink {p t : Nat} {o : Onset} {r : Rime} (h : Spelled ct w t p true o r) : Spelled ct w t p false o r := by
  have two : ∀ {i c snd cls d snd2 cls2 o}, TwoLetters i true c snd cls d snd2 cls2 o →
      TwoLetters i false c snd cls d snd2 cls2 o := by
    rintro i c snd cls d snd2 cls2 o (⟨cs, s, h1, h2, -, h4⟩ | ⟨-, -, h, -⟩ | h | h)
    · exact .inl ⟨cs, s, h1, h2, fun h => (by cases h), h4⟩
    · cases h
    · exact .inr (.inr (.inl h))
    · exact .inr (.inr (.inr h))
  have ons : ∀ {i o}, OnsetAt ct w t i true o → OnsetAt ct w t i false o := by
    rintro i o ⟨c, snd, cls, h1, h2, h | ⟨d, s2, c2, h3, h4, h5, h6⟩ | h⟩
    · exact ⟨c, snd, cls, h1, h2, .inl h⟩
    · exact ⟨c, snd, cls, h1, h2, .inr (.inl ⟨d, s2, c2, h3, h4, h5, two h6⟩)⟩
    · exact ⟨c, snd, cls, h1, h2, .inr (.inr h)⟩
  have rime : ∀ {o r}, ConsRime ct w t o true r → ConsRime ct w t o false r := by
    rintro o r (h | h | h | ⟨m, k, h1, h⟩)
    · exact .inl h
    · exact .inr (.inl h)
    · exact .inr (.inr (.inl h))
    · refine .inr (.inr (.inr ⟨m, k, h1, ?_⟩))
      rcases h with h | h | h | h | h | h | ⟨-, -, h, -⟩ | h
      · exact .inl h
      · exact .inr (.inl h)
      · exact .inr (.inr (.inl h))
      · exact .inr (.inr (.inr (.inl h)))
      · exact .inr (.inr (.inr (.inr (.inl h))))
      · exact .inr (.inr (.inr (.inr (.inr (.inl h)))))
      · cases h
      · exact .inr (.inr (.inr (.inr (.inr (.inr (.inr h))))))
  obtain ⟨c, hc, ⟨h1, ⟨h2, h3, h4⟩ | h⟩ | ⟨h1, h2, h3, h4⟩ | ⟨h1, h2, h3, h4⟩ | h⟩ := h
  · exact ⟨c, hc, .inl ⟨h1, .inl ⟨ons h2, h3, rime h4⟩⟩⟩
  · exact ⟨c, hc, .inl ⟨h1, .inr h⟩⟩
  · exact ⟨c, hc, .inr (.inl ⟨h1, h2, ons h3, h4⟩)⟩
  · exact ⟨c, hc, .inr (.inr (.inl ⟨h1, h2, ons h3, h4⟩))⟩
  · exact ⟨c, hc, .inr (.inr (.inr h))⟩

/-! ## Pre-syllables -/

theorem letter_unique {c : Nat} {a a' : InitConsSound} {b b' : InitConsClass} (h : Letter ct c a b) (h' : Letter ct c a' b') :
    a = a' ∧ b = b' := by
  obtain ⟨-, h1, h2⟩ := h
  obtain ⟨-, h1', h2'⟩ := h'
  have := C02_sound_conv _ _ h1
  rw [C02_sound_conv _ _ h1'] at this; cases this
  have := C02_class_conv _ _ h2
  rw [C02_class_conv _ _ h2'] at this; cases this
  exact ⟨rfl, rfl⟩

theorem onset_pre {i : Nat} {l : Bool} {o : Onset} {x : Syl} (h : OnsetAt ct w t i l o) (hx : o.pre = some x) :
    ∃ c snd cls, w[i]? = some c ∧ Letter ct c snd cls ∧ x = openSyl snd cls VW.A ∧ o.stop = i + 2 ∧
      (o.inherent = none ∨ At w t (i + 1) ch!"ฤ") := by
  obtain ⟨c, snd, cls, h1, h2, rfl | ⟨d, s2, c2, h3, h4, h5, h6⟩ | ⟨h3, h4⟩⟩ := h
  · cases hx
  · rcases h6 with ⟨cs, s, -, -, -, rfl⟩ | ⟨-, -, -, rfl⟩ | ⟨-, -, rfl⟩ | rfl
    · cases hx
    · cases hx
    · cases hx
    · cases hx
      exact ⟨c, snd, cls, h1, h2, rfl, rfl, .inl rfl⟩
  · rcases h4 with ⟨-, rfl⟩ | ⟨-, rfl | rfl⟩ | ⟨-, rfl⟩ | ⟨-, rfl⟩ | ⟨-, -, rfl⟩ | ⟨-, v, -, ⟨-, rfl⟩ | rfl⟩ <;> cases hx <;>
      exact ⟨c, snd, cls, h1, h2, rfl, rfl, .inr h3.1⟩

theorem shut_gt {j : Nat} {x : U16Str} {v : Vowel} {m : Tone} {r : Rime} (h : Shut ct w t j x v m r) : j < r.stop := by
  obtain ⟨k, b, f, ⟨c, -, -, h⟩, rfl⟩ := h
  exact skipAny_ge h

/-- A rime with a written vowel or final is at least one character long. -/
theorem consRime_gt {o : Onset} {l : Bool} {r : Rime} (hi : o.inherent = none) (h : ConsRime ct w t o l r) :
    o.stop < r.stop := by
  rcases h with h | h | h | h
  · obtain ⟨-, m, k, hm, h⟩ := h
    have := markAt_ge hm
    rcases h with ⟨-, -, h⟩ | ⟨-, -, h⟩ | ⟨-, -, h⟩ | ⟨-, -, h⟩
    · have := open_ge h; omega
    · have := open_ge h; omega
    · have := shutX_ge h; omega
    · have := shut_ge h; omega
  · obtain ⟨c, v, m, k, -, -, -, hm, h⟩ := h
    have := markAt_ge hm
    rcases h with ⟨-, -, h⟩ | ⟨-, ⟨-, rfl | h⟩ | ⟨-, -, rfl⟩ | ⟨-, -, rfl | h⟩⟩
    · have := signFinal_ge h; omega
    · simp only; omega
    · have := signFinal_ge h; omega
    · simp only; omega
    · simp only; omega
    · have := signFinal_ge h; omega
  · obtain ⟨-, -, k, hk, h⟩ := h
    have := skip_ge hk
    have := shut_ge h
    omega
  · obtain ⟨m, k, hm, h⟩ := h
    have := markAt_ge hm
    rcases h with ⟨-, h⟩ | ⟨-, h | ⟨k', hk, h⟩⟩ | ⟨-, h⟩ | ⟨-, h⟩ | ⟨-, h | ⟨k', hk, h⟩⟩ | h | ⟨-, -, -, h⟩ | ⟨v, c, hv, -⟩
    · have := open_ge h; omega
    · have := open_ge h; omega
    · have := skip_ge hk; have := shutX_ge h; omega
    · have := open_ge h; omega
    · have := shut_ge h; omega
    · have := open_ge h; omega
    · have := skip_ge hk; have := shut_ge h; omega
    · obtain ⟨-, ⟨-, h⟩ | ⟨k', hk, -, h⟩⟩ := h
      · have := open_ge h; omega
      · have hk' : k + 1 ≤ k' := by
          split at hk
          · omega
          · exact skip_ge hk
        rcases h with h | ⟨-, h⟩
        · have := open_ge h; omega
        · have := shutX_ge h; omega
    · have := shut_gt h; omega
    · rw [hi] at hv; cases hv

theorem three_infix {a b c i : Nat} (h0 : w[i]? = some a) (h1 : w[i + 1]? = some b) (h2 : w[i + 2]? = some c) :
    [a, b, c] <:+: w := by
  have : w.drop i = a :: b :: c :: w.drop (i + 3) := by
    have e0 := List.getElem?_eq_some_iff.mp h0
    have e1 := List.getElem?_eq_some_iff.mp h1
    have e2 := List.getElem?_eq_some_iff.mp h2
    obtain ⟨l0, rfl⟩ := e0
    obtain ⟨l1, rfl⟩ := e1
    obtain ⟨l2, rfl⟩ := e2
    rw [List.drop_eq_getElem_cons l0, List.drop_eq_getElem_cons l1, List.drop_eq_getElem_cons l2]
  exact ⟨w.take i, w.drop (i + 3), by
    conv_rhs => rw [← List.take_append_drop i w, this]
    simp⟩

/-- The pre-syllable of a whole syllable: the vowel "o" with ร, or "a" with ฤ. -/
theorem whole_pre {i : Nat} {o : Onset} {r : Rime} {x : Syl} (h : WholeAt ct w t i o r) (hx : o.pre = some x) :
    ∃ c snd cls, w[i]? = some c ∧ Letter ct c snd cls ∧
      ((x = openSyl snd cls VW.A ∧ At w t (i + 1) ch!"ฤ") ∨
       (x = openSyl snd cls VW.AUU ∧ At w t (i + 1) ch!"ร" ∧
        (r.stop = i + 2 ∨ (At w t (i + 2) ch!"ิ" ∧ c = ch!"บ") ∨ (At w t (i + 2) ch!"ะ" ∧ c = ch!"จ")))) := by
  obtain ⟨c, snd, cls, h1, h2, h⟩ := h
  refine ⟨c, snd, cls, h1, h2, ?_⟩
  rcases h with ⟨-, rfl, -⟩ | ⟨-, -, -, -, rfl, -⟩ | ⟨h3, -, -, ⟨-, -, rfl, rfl⟩ | ⟨h4, h5, rfl, rfl⟩ | ⟨h4, h5, rfl, rfl⟩⟩ | ⟨h3, -, rfl, -⟩
  · cases hx
  · cases hx
  · cases hx; exact .inr ⟨rfl, h3, .inl rfl⟩
  · cases hx; exact .inr ⟨rfl, h3, .inr (.inl ⟨h4, h5⟩)⟩
  · cases hx; exact .inr ⟨rfl, h3, .inr (.inr ⟨h4, h5⟩)⟩
  · cases hx; exact .inl ⟨rfl, h3.1⟩

/-- Two syllables over the same span have the same pre-syllable, if both have one. -/
theorem pre_same (hct : ct.Ok) (hb : ¬ u!"บริ" <:+: w) (hj : ¬ u!"จระ" <:+: w) {p t : Nat} {l l' : Bool} {o o' : Onset}
    {r r' : Rime} {x x' : Syl} (h : Spelled ct w t p l o r) (h' : Spelled ct w t p l' o' r') (hs : r.stop = r'.stop)
    (hx : o.pre = some x) (hx' : o'.pre = some x') : x = x' := by
  obtain ⟨c, hc, h⟩ := h
  obtain ⟨c', hc', h'⟩ := h'
  obtain rfl : c = c' := by rw [hc] at hc'; cases hc'; rfl
  -- onset and whole syllable
  have mixed : ∀ {l o r o' r' x x'}, OnsetAt ct w t p l o → ConsRime ct w t o l r → WholeAt ct w t p o' r' → r.stop = r'.stop →
      o.pre = some x → o'.pre = some x' → x = x' := by
    intro l o r o' r' x x' h1 h2 h3 hs hx hx'
    obtain ⟨a, s1, s2, a1, a2, rfl, a4, a5⟩ := onset_pre h1 hx
    obtain ⟨b, s3, s4, b1, b2, b3⟩ := whole_pre h3 hx'
    rw [a1] at b1; cases b1
    obtain ⟨rfl, rfl⟩ := letter_unique a2 b2
    rcases b3 with ⟨rfl, -⟩ | ⟨-, b4, b5⟩
    · rfl
    · exfalso
      rcases a5 with a5 | a5
      · have := consRime_gt a5 h2
        rcases b5 with b5 | ⟨b5, rfl⟩ | ⟨b5, rfl⟩
        · omega
        · exact hb (three_infix a1 b4.2 b5.2)
        · exact hj (three_infix a1 b4.2 b5.2)
      · rw [At, b4.2] at a5; cases a5.2
  have onsets : ∀ {i l l' o o' x x'}, OnsetAt ct w t i l o → OnsetAt ct w t i l' o' → o.pre = some x → o'.pre = some x' →
      x = x' := by
    intro i l l' o o' x x' h1 h2 hx hx'
    obtain ⟨a, s1, s2, a1, a2, rfl, -⟩ := onset_pre h1 hx
    obtain ⟨b, s3, s4, b1, b2, rfl, -⟩ := onset_pre h2 hx'
    rw [a1] at b1; cases b1
    obtain ⟨rfl, rfl⟩ := letter_unique a2 b2
    rfl
  have lead : ∀ {c : Nat}, c = ch!"เ" → 0x0e40 ≤ c := by rintro _ rfl; decide
  rcases h with ⟨h1, ⟨h2, h3, h4⟩ | ⟨h2, h3⟩⟩ | ⟨h1, h2, h3, h4⟩ | ⟨h1, h2, h3, h4⟩ | ⟨-, rfl, -⟩
  · rcases h' with ⟨k1, ⟨k2, k3, k4⟩ | ⟨k2, k3⟩⟩ | ⟨k1, k2, k3, k4⟩ | ⟨k1, k2, k3, k4⟩ | ⟨-, rfl, -⟩
    · exact onsets h2 k2 hx hx'
    · exact mixed h2 h4 k2 hs hx hx'
    · have := hct.cons _ h1; have := lead k1; omega
    · have := hct.cons _ h1; have := hct.ld _ k1; omega
    · cases hx'
  · rcases h' with ⟨k1, ⟨k2, k3, k4⟩ | ⟨k2, k3⟩⟩ | ⟨k1, k2, k3, k4⟩ | ⟨k1, k2, k3, k4⟩ | ⟨-, rfl, -⟩
    · exact (mixed k2 k4 h2 hs.symm hx' hx).symm
    · obtain ⟨a, s1, s2, a1, a2, a3⟩ := whole_pre h2 hx
      obtain ⟨b, s3, s4, b1, b2, b3⟩ := whole_pre k2 hx'
      rw [a1] at b1; cases b1
      obtain ⟨rfl, rfl⟩ := letter_unique a2 b2
      rcases a3 with ⟨rfl, a4⟩ | ⟨rfl, a4, -⟩ <;> rcases b3 with ⟨rfl, b4⟩ | ⟨rfl, b4, -⟩
      · rfl
      · rw [At, b4.2] at a4; cases a4.2
      · rw [At, b4.2] at a4; cases a4.2
      · rfl
    · have := hct.cons _ h1; have := lead k1; omega
    · have := hct.cons _ h1; have := hct.ld _ k1; omega
    · cases hx'
  · rcases h' with ⟨k1, -⟩ | ⟨k1, k2, k3, k4⟩ | ⟨k1, k2, k3, k4⟩ | ⟨-, rfl, -⟩
    · have := hct.cons _ k1; have := lead h1; omega
    · exact onsets h3 k3 hx hx'
    · exact absurd h1 k2
    · cases hx'
  · rcases h' with ⟨k1, -⟩ | ⟨k1, k2, k3, k4⟩ | ⟨k1, k2, k3, k4⟩ | ⟨-, rfl, -⟩
    · have := hct.cons _ k1; have := hct.ld _ h1; omega
    · exact absurd k1 h2
    · exact onsets h3 k3 hx hx'
    · cases hx'
  · cases hx

/-! ## Steps -/

/-- A linking syllable ends at `p`. -/
def LinkedAt (ct : CType) (w : U16Str) (brk : List Int) (p : Nat) : Prop :=
  ∃ q t l o r, TokenTo ct w brk q t ∧ Spelled ct w t q l o r ∧ r.linked = true ∧ r.stop = p

theorem linkedAt_cons (hct : ct.Ok) {p : Nat} (h : LinkedAt ct w brk p) : ∃ x, w[p]? = some x ∧ ct.isCons x = true := by
  obtain ⟨q, t, l, o, r, h1, h2, h3, rfl⟩ := h
  obtain ⟨x, _, hx, hc, -⟩ := (spelled_emit hct h1 h2).2.2 h3
  exact ⟨x, hx, hc⟩

/-- A step by itself. -/
structure Seg (ct : CType) (w : U16Str) (look : List Nat → Option Str) (brk : List Int) (p : Nat) (l : Bool) (q : Nat)
    (l' : Bool) (new : List (Entry Syl)) : Prop where
  rule : Rule ct w look brk ⟨p, l, []⟩ ⟨q, l', new⟩
  link : l = true → LinkedAt ct w brk p

variable {p q : Nat} {l l' : Bool} {new : List (Entry Syl)}

/-- A step without periods, by itself. -/
theorem rule_seg {c c' : Config} (hdot : ch!"." ∉ w) (h : Rule ct w look brk c c') :
    ∃ new, c'.edges = c.edges ++ new ∧ Rule ct w look brk ⟨c.pos, c.linked, []⟩ ⟨c'.pos, c'.linked, new⟩ := by
  cases h with
  | other h => exact ⟨_, rfl, by simpa using Rule.other (es := []) h⟩
  | word h1 h2 h3 h4 => exact ⟨_, rfl, by simpa using Rule.word (es := []) h1 h2 h3 h4⟩
  | abbr h1 h2 h3 h4 => exact ⟨_, rfl, by simpa using Rule.abbr (es := []) h1 h2 h3 h4⟩
  | syl h1 h2 h3 h4 => exact ⟨_, rfl, by simpa using Rule.syl (es := []) h1 h2 h3 h4⟩
  | dot h1 h2 h3 h4 => exact absurd (List.mem_of_getElem? h4) hdot

/-- A step without periods, after others. -/
theorem seg_rule (hdot : ch!"." ∉ w) {es : List (Entry Syl)} (h : Rule ct w look brk ⟨p, l, []⟩ ⟨q, l', new⟩) :
    Rule ct w look brk ⟨p, l, es⟩ ⟨q, l', es ++ new⟩ := by
  generalize hc : (⟨p, l, []⟩ : Config) = c at h
  generalize hc' : (⟨q, l', new⟩ : Config) = c' at h
  cases h with
  | other h => cases hc; cases hc'; exact .other h
  | word h1 h2 h3 h4 => cases hc; cases hc'; exact .word h1 h2 h3 h4
  | abbr h1 h2 h3 h4 => cases hc; cases hc'; exact .abbr h1 h2 h3 h4
  | syl h1 h2 h3 h4 => cases hc; cases hc'; exact .syl h1 h2 h3 h4
  | dot h1 h2 h3 h4 => cases hc; exact absurd (List.mem_of_getElem? h4) hdot

theorem Seg.next (hct : ct.Ok) (hdot : ch!"." ∉ w) (h : Seg ct w look brk p l q l' new) : l' = true → LinkedAt ct w brk q := by
  obtain ⟨h, hl⟩ := h
  generalize hc : (⟨p, l, []⟩ : Config) = c at h
  generalize hc' : (⟨q, l', new⟩ : Config) = c' at h
  cases h with
  | other h =>
    cases hc; cases hc'
    intro h'
    obtain ⟨x, h1, h2⟩ := linkedAt_cons hct (hl h')
    exact absurd ⟨x, h1, .inl h2⟩ (h.2.2.1 _ (Nat.le_refl _) h.1)
  | word h1 h2 h3 h4 => cases hc; cases hc'; intro h; cases h
  | abbr h1 h2 h3 h4 => cases hc; cases hc'; intro h; cases h
  | syl h1 h2 h3 h4 => cases hc; cases hc'; exact fun h => ⟨_, _, _, _, _, h1, h4, h, rfl⟩
  | dot h1 h2 h3 h4 => cases hc; exact absurd (List.mem_of_getElem? h4) hdot

/-- A step can be taken after any partial reading that ends where it begins. -/
theorem Seg.relink (hct : ct.Ok) (hu : Unmixed ct w look brk) (h : Seg ct w look brk p l q l' new) {m : Bool}
    (hm : m = true → LinkedAt ct w brk p) : Seg ct w look brk p m q l' new := by
  obtain ⟨h, hl⟩ := h
  generalize hc : (⟨p, l, []⟩ : Config) = c at h
  generalize hc' : (⟨q, l', new⟩ : Config) = c' at h
  cases h with
  | other h =>
    cases hc; cases hc'
    have no : ∀ {b}, (b = true → LinkedAt ct w brk p) → b = false := by
      intro b hb
      cases b
      · rfl
      · obtain ⟨x, h1, h2⟩ := linkedAt_cons hct (hb rfl)
        exact absurd ⟨x, h1, .inl h2⟩ (h.2.2.1 _ (Nat.le_refl _) h.1)
    obtain rfl := no hm
    obtain rfl := no hl
    exact ⟨.other h, hm⟩
  | word h1 h2 h3 h4 => cases hc; cases hc'; exact ⟨.word h1 h2 h3 h4, hm⟩
  | abbr h1 h2 h3 h4 => cases hc; cases hc'; exact ⟨.abbr h1 h2 h3 h4, hm⟩
  | @syl _ _ _ t0 o r h1 h2 h3 h4 =>
    cases hc; cases hc'
    refine ⟨.syl h1 h2 h3 ?_, hm⟩
    have h5 : Spelled ct w t0 p false o r := by
      cases l
      · exact h4
      · exact spelled_unlink h4
    cases m
    · exact h5
    · obtain ⟨q, t, b, o', r', k1, k2, k3, rfl⟩ := hm rfl
      exact hu.link q t b o' r' _ o r k1 k2 k3 h1 h5
  | dot h1 h2 h3 h4 => cases hc; exact absurd (List.mem_of_getElem? h4) hu.dot

/-- The edges of a step: one, or two with a pre-syllable. -/
theorem Seg.shape (hct : ct.Ok) (hg : GoodLook look) (hu : Unmixed ct w look brk) (h : Seg ct w look brk p l q l' new) :
    (∃ x, new = [⟨p, q, x⟩]) ∨
    (p < q ∧ q ≤ p + 40 ∧ ∃ t o r x y, TokenTo ct w brk p t ∧ Spelled ct w t p l o r ∧ r.stop = q ∧ o.pre = some x ∧
      new = [⟨p, spanPos p q, { x with endPos := spanPos p q }⟩, ⟨spanPos p q, q, y⟩]) := by
  obtain ⟨h, hl⟩ := h
  generalize hc : (⟨p, l, []⟩ : Config) = c at h
  generalize hc' : (⟨q, l', new⟩ : Config) = c' at h
  cases h with
  | other h => cases hc; cases hc'; exact .inl ⟨_, rfl⟩
  | @word _ _ _ t _ data strs str h1 h2 h3 h4 =>
    cases hc; cases hc'
    left
    obtain ⟨k1, k2, k3, -⟩ := h2
    have hlen := hu.words p q data strs str k3 h3 h4
    obtain ⟨strs', k4, k5⟩ := hg _ _ k3
    rw [(makeSylStrings_iff data strs).mpr h3] at k4; cases k4
    obtain ⟨s, rfl⟩ := List.length_eq_one_iff.mp hlen
    have hs : s.endPos = ((piece w p q).length : Int) := (k5 _ h4).2.2
    have : movedEnd p s.endPos = q := by
      rw [hs, movedEnd, piece, List.length_take, List.length_drop]
      split <;> omega
    refine ⟨{ s with endPos := q }, ?_⟩
    simp only [wordEdges, this, List.nil_append]
  | @abbr _ _ _ t _ new h1 h2 h3 h4 =>
    cases hc; cases hc'
    left
    rcases h4 with ⟨h4, rfl⟩ | ⟨h4, cs, k1, k2, k3⟩
    · exact absurd (List.mem_of_getElem? h4) hu.dot
    · rcases h3.shape with ⟨n, -, -, -, h⟩ | ⟨rfl, -, c, h5, -⟩
      · exact absurd (List.mem_of_getElem? h) hu.dot
      · have hp : piece w p (p + 1) = [c] := by
          have hlt := (List.getElem?_eq_some_iff.mp h5).1
          rw [piece, List.drop_eq_getElem_cons hlt, Nat.add_sub_cancel_left, List.take_succ_cons, List.take_zero]
          rw [List.getElem?_eq_some_iff] at h5
          rw [h5.2]
        rw [hp] at k1
        obtain rfl : cs = [c] := by
          rcases k1 with k1 | k1
          · have := congrArg List.getLast? k1
            simp only [List.getLast?_singleton, List.getLast?_append, Option.or] at this
            exact absurd (List.mem_of_getElem? (h5.trans this)) hu.dot
          · exact k1.1.symm
        obtain ⟨e, rfl⟩ := List.length_eq_one_iff.mp k2
        obtain ⟨m1, m2, -⟩ := k3 0 c e rfl rfl
        refine ⟨e.val, ?_⟩
        rw [if_pos (by simp)] at m2
        cases e
        simp only at m1 m2
        simp [m1, m2]
  | @syl _ _ _ t o r h1 h2 h3 h4 =>
    cases hc; cases hc'
    cases hpre : o.pre with
    | none => left; exact ⟨spoken o r, by simp [spelledEdges, hpre]⟩
    | some x =>
      right
      obtain ⟨k1, k2, -⟩ := spelled_emit hct h1 h4
      exact ⟨k1, k2, t, o, r, x, spoken o r, h1, h4, rfl, hpre, by simp [spelledEdges, hpre]⟩
  | dot h1 h2 h3 h4 => cases hc; exact absurd (List.mem_of_getElem? h4) hu.dot

/-- The partial readings are linked only after linking syllables. -/
theorem rules_linkedAt (hct : ct.Ok) (hdot : ch!"." ∉ w) {c : Config}
    (h : Relation.ReflTransGen (Rule ct w look brk) ⟨0, false, []⟩ c) : c.linked = true → LinkedAt ct w brk c.pos := by
  induction h with
  | refl => intro h; cases h
  | tail _ hs ih =>
    obtain ⟨new, -, hr⟩ := rule_seg hdot hs
    exact Seg.next hct hdot ⟨hr, ih⟩

/-- An edge of a reading belongs to one of its steps. -/
theorem edge_seg (hct : ct.Ok) (hdot : ch!"." ∉ w) {c : Config}
    (h : Relation.ReflTransGen (Rule ct w look brk) ⟨0, false, []⟩ c) {e : Entry Syl} (he : e ∈ c.edges) :
    ∃ p l q l' new, Seg ct w look brk p l q l' new ∧ e ∈ new := by
  induction h with
  | refl => cases he
  | tail hp hs ih =>
    obtain ⟨new, h1, hr⟩ := rule_seg hdot hs
    rw [h1] at he
    rcases List.mem_append.mp he with he | he
    · exact ih he
    · exact ⟨_, _, _, _, new, ⟨hr, rules_linkedAt hct hdot hp⟩, he⟩

/-- A way along edges of readings is a reading. -/
theorem route_reading (hct : ct.Ok) (hg : GoodLook look) (hu : Unmixed ct w look brk) (n : Nat) :
    ∀ (s : List Syl) (c : Config), s.length ≤ n → Relation.ReflTransGen (Rule ct w look brk) ⟨0, false, []⟩ c →
      Route (ReadEdge ct w look brk) c.pos w.length s →
      ∃ es, RuleReading ct w look brk (c.edges ++ es) ∧ IsPron s es := by
  induction n with
  | zero =>
    intro s c hs hc hr
    obtain rfl := List.length_eq_zero_iff.mp (Nat.le_zero.mp hs)
    have : (c.pos : Int) = w.length := hr
    exact ⟨[], ⟨c, hc, by omega, by simp⟩, .nil⟩
  | succ n ih =>
    intro s c hs hc hr
    cases s with
    | nil =>
      have : (c.pos : Int) = w.length := hr
      exact ⟨[], ⟨c, hc, by omega, by simp⟩, .nil⟩
    | cons x s =>
      obtain ⟨⟨es0, ⟨c0, k1, k2, rfl⟩, e, he, hk, ht, hx⟩, hr⟩ := hr
      obtain ⟨p, l, q, l', new, hseg, hmem⟩ := edge_seg hct hu.dot k1 he
      have hlink := rules_linkedAt hct hu.dot hc
      rcases hseg.shape hct hg hu with ⟨y, rfl⟩ | ⟨j1, j2, t, o, r, y, z, j3, j4, rfl, j6, rfl⟩
      · obtain rfl := List.mem_singleton.mp hmem
        simp only at hk ht hx
        obtain rfl : p = c.pos := by omega
        have hseg' := hseg.relink hct hu hlink
        have step := seg_rule hu.dot (es := c.edges) hseg'.rule
        rw [← ht] at hr
        obtain ⟨es, h1, h2⟩ := ih s ⟨q, l', c.edges ++ [⟨c.pos, q, y⟩]⟩ (by simpa using hs) (hc.tail step) hr
        refine ⟨⟨c.pos, q, y⟩ :: es, by simpa using h1, .cons ⟨LawfulCppEq.symm hx, ht.symm⟩ h2⟩
      · rcases List.mem_cons.mp hmem with rfl | hmem
        · simp only at hk ht hx
          obtain rfl : p = c.pos := by omega
          cases s with
          | nil =>
            have hr : x.endPos = w.length := hr
            rw [← ht, spanPos] at hr
            omega
          | cons x2 s =>
            obtain ⟨⟨es2, ⟨c2, m1, m2, rfl⟩, e2, he2, hk2, ht2, hx2⟩, hr⟩ := hr
            obtain ⟨p2, l2, q2, l2', new2, hseg2, hmem2⟩ := edge_seg hct hu.dot m1 he2
            rw [← ht] at hk2
            have hneg : spanPos c.pos r.stop < 0 := by rw [spanPos]; omega
            rcases hseg2.shape hct hg hu with ⟨y2, rfl⟩ | ⟨i1, i2, t2, o2, r2, y2, z2, i3, i4, rfl, i6, rfl⟩
            · obtain rfl := List.mem_singleton.mp hmem2
              simp only at hk2
              omega
            · rcases List.mem_cons.mp hmem2 with rfl | hmem2
              · simp only at hk2
                omega
              · obtain rfl := List.mem_singleton.mp hmem2
                simp only at hk2 ht2 hx2
                obtain ⟨rfl, hst⟩ := C44_injective _ _ _ _ ⟨i1, by omega⟩ ⟨j1, by omega⟩ hk2
                obtain rfl := (tokenTo_iff.mp j3).unique (tokenTo_iff.mp i3)
                have hy : y = y2 := pre_same hct hu.bori hu.jora j4 i4 hst.symm j6 i6
                have hseg' := hseg2.relink hct hu hlink
                have step := seg_rule hu.dot (es := c.edges) hseg'.rule
                rw [← ht2] at hr
                obtain ⟨es, h1, h2⟩ := ih s _ (by simp at hs ⊢; omega) (hc.tail step) hr
                refine ⟨_ :: _ :: es, by simpa using h1, .cons ⟨?_, ?_⟩ (.cons ⟨LawfulCppEq.symm hx2, ht2.symm⟩ h2)⟩
                · rw [← hy, hst]
                  exact LawfulCppEq.symm hx
                · simp only [hst]; exact ht.symm
        · obtain rfl := List.mem_singleton.mp hmem
          simp only at hk
          rw [spanPos] at hk
          omega

/-- In sparse texts, what can be read from a consonant on can also be read from it after it has been a final one. -/
theorem sparse_link (hct : ct.Ok) (h5 : Sparse ct w) : ∀ q t l o r t' o' r', TokenTo ct w brk q t → Spelled ct w t q l o r →
    r.linked = true → TokenTo ct w brk r.stop t' → Spelled ct w t' r.stop false o' r' → Spelled ct w t' r.stop true o' r' := by
  rintro q t l o r t' o' r' k1 k2 k3 k4 k5
  obtain ⟨m1, m2, m3⟩ := spelled_emit hct k1 k2
  obtain ⟨c, d, n1, n2, n3, n4⟩ := m3 k3
  generalize r.stop = s at *
  have hd : d ∈ afterClusterVowels := by
    rcases n4 with n4 | ⟨n4, n, n5, n6⟩
    · exact n4
    · have := h5 s c d n (by omega) n1 n2 n3 n4 n5
      rcases n6 with n6 | n6
      · exact absurd n6 this.1
      · rw [this.2] at n6; cases n6
  have hval : ∀ d ∈ afterClusterVowels, d = 0x0e24 ∨ 0x0e2f < d ∧ d < 0x0e40 := by decide
  have hdc : ct.isCons d ≠ true := by
    intro h
    have := hct.cons d h
    have := hval d hd
    omega
  have hdt : ct.isTone d ≠ true := by
    intro h
    have := hct.tone d h
    have := hval d hd
    omega
  have ons : ∀ {o}, OnsetAt ct w t' s false o → OnsetAt ct w t' s true o ∧
      (o.inherent = none → o.stop = s + 1) := by
    rintro o ⟨c, snd, cls, h1, h2, rfl | ⟨e, s2, c2, h3, h4, h5, h6⟩ | ⟨h, h'⟩⟩
    · exact ⟨⟨c, snd, cls, h1, h2, .inl rfl⟩, fun _ => rfl⟩
    · rw [At, n3] at h3
      cases h3.2
      exact absurd h4.1 hdc
    · refine ⟨⟨c, snd, cls, h1, h2, .inr (.inr ⟨h, h'⟩)⟩, fun hi => ?_⟩
      exfalso
      rcases h' with ⟨-, rfl⟩ | ⟨-, rfl | rfl⟩ | ⟨-, rfl⟩ | ⟨-, rfl⟩ | ⟨-, -, rfl⟩ | ⟨-, v, -, ⟨-, rfl⟩ | rfl⟩ <;> cases hi
  have rime : ∀ {o r}, (o.inherent = none → o.stop = s + 1) → ConsRime ct w t' o false r → ConsRime ct w t' o true r := by
    rintro o r hi (h | h | h | ⟨m, k, h1, h⟩)
    · exact .inl h
    · exact .inr (.inl h)
    · exact .inr (.inr (.inl h))
    · refine .inr (.inr (.inr ⟨m, k, h1, ?_⟩))
      rcases h with h | h | h | h | h | h | ⟨h2, -, -, h⟩ | h
      · exact .inl h
      · exact .inr (.inl h)
      · exact .inr (.inr (.inl h))
      · exact .inr (.inr (.inr (.inl h)))
      · exact .inr (.inr (.inr (.inr (.inl h))))
      · exact .inr (.inr (.inr (.inr (.inr (.inl h)))))
      · exfalso
        rw [hi h2] at h1
        rcases h1 with ⟨e, h3, h4, -⟩ | ⟨-, -, rfl⟩
        · rw [At, n3] at h3; cases h3.2; exact hdt h4
        · obtain ⟨_, _, _, ⟨e, ⟨h3, h4, -⟩, -⟩, -⟩ := h
          rw [At, n3] at h3; cases h3.2; exact hdc h4
      · exact .inr (.inr (.inr (.inr (.inr (.inr (.inr h))))))
  obtain ⟨e, hc, h⟩ := k5
  rw [n1] at hc; cases hc
  have hr := hct.cons _ n2
  refine ⟨c, n1, ?_⟩
  rcases h with ⟨h1, ⟨h2, h3, h4⟩ | h⟩ | ⟨rfl, -⟩ | ⟨h, -⟩ | ⟨rfl | rfl, -⟩
  · exact .inl ⟨h1, .inl ⟨(ons h2).1, h3, rime (ons h2).2 h4⟩⟩
  · exact .inl ⟨h1, .inr h⟩
  · omega
  · have := hct.ld _ h; omega
  · omega
  · omega

/-- A simple kind of text that can be read without mixing. -/
theorem sparse_unmixed (hct : ct.Ok) (h1 : ch!"." ∉ w)
    (h2 : ∀ p q data strs str, look (piece w p q) = some data → DataIs data strs → str ∈ strs →
      str.length = 1)
    (h3 : ¬ u!"บริ" <:+: w) (h4 : ¬ u!"จระ" <:+: w) (h5 : Sparse ct w) : Unmixed ct w look brk :=
  ⟨h1, h2, h3, h4, sparse_link hct h5⟩

end Thpronun
