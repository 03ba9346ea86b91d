import Verif.Lemmas.Rules
import Verif.Spec.Breaks

/-! # Spellings before a break are spellings without it -/

namespace Thpronun
open Res Spec

variable {ct : CType} {w : U16Str} {look : List Nat → Option Str} {t t' : Nat}

/-- What the grammar needs of a break at `t` in a token up to `t'`. -/
structure Soft (ct : CType) (w : U16Str) (t t' : Nat) : Prop where
  ok : ct.Ok
  lt : t < t'
  start : ∃ x, w[t]? = some x ∧ (ct.isCons x = true ∨ ct.isLdVowel x = true)
  loud : w[t + 1]? ≠ some ch!"์" ∧ w[t + 2]? ≠ some ch!"์"
  before : ∀ i c, i + 1 = t → w[i]? = some c → ct.isLdVowel c = false ∧ c ∉ u!"ฤฦื"
  uee : ∀ i c, i + 2 = t → w[i]? = some ch!"ื" → w[i + 1]? = some c → ct.isTone c = false
  rr : ∀ i, i + 1 = t → ¬ (w[i]? = some ch!"ร" ∧ w[t]? = some ch!"ร")
  ey : ∀ i, i < t → t ≤ i + 4 → w[i]? = some ch!"เ" → w[t]? = some ch!"ย" → ¬ EndOrStart ct w t' (t + 1)
  eoa : ∀ i c, i + 4 = t → w[i]? = some ch!"เ" → w[i + 2]? = some ch!"อ" → w[i + 3]? = some c → ct.isTone c = false

namespace Soft
variable (S : Soft ct w t t')
include S

/-- What stands at the break is a letter. -/
theorem letter {c : Nat} (h : w[t]? = some c) : (0x0e01 ≤ c ∧ c ≤ 0x0e2e) ∨ (0x0e40 ≤ c ∧ c ≤ 0x0e44) := by
  obtain ⟨x, hx, h1 | h1⟩ := S.start <;> rw [h] at hx <;> cases hx
  · have := S.ok.cons _ h1; omega
  · have := S.ok.ld _ h1; omega

theorem at_ {i c : Nat} (h : At w t i c) : At w t' i c := ⟨h.1.trans S.lt, h.2⟩

theorem at_lt {i c : Nat} (hi : i < t) : At w t i c ↔ At w t' i c :=
  ⟨S.at_, fun h => ⟨hi, h.2⟩⟩

/-- Signs are the same up to the break. -/
theorem sign {i c : Nat} (hi : i ≤ t) (hc : (0x0e2f ≤ c ∧ c ≤ 0x0e3f) ∨ 0x0e45 ≤ c) : At w t i c ↔ At w t' i c := by
  rcases Nat.lt_or_eq_of_le hi with h | rfl
  · exact S.at_lt h
  · refine ⟨S.at_, fun h => ?_⟩
    have := S.letter h.2
    omega

theorem startAt {i : Nat} (h : StartAt ct w t i) : StartAt ct w t' i := by
  obtain ⟨c, h1, h2⟩ := h
  exact ⟨c, S.at_ h1, h2⟩

theorem startAt_t : StartAt ct w t' t := by
  obtain ⟨x, h1, h2⟩ := S.start
  exact ⟨x, ⟨S.lt, h1⟩, h2⟩

theorem endOrStart {i : Nat} (hi : i ≤ t) : EndOrStart ct w t i ↔ EndOrStart ct w t' i := by
  have := S.lt
  constructor
  · rintro (h | h)
    · have : i = t := by omega
      subst this
      exact .inr S.startAt_t
    · exact .inr (S.startAt h)
  · rintro (h | ⟨c, h1, h2⟩)
    · omega
    · by_cases h : i < t
      · exact .inr ⟨c, ⟨h, h1.2⟩, h2⟩
      · exact .inl (by omega)

theorem silent {i : Nat} (hi : i ≤ t) : Silent ct w t i ↔ Silent ct w t' i := by
  constructor
  · rintro ⟨c, h1, h2, h3⟩
    exact ⟨c, S.at_ h1, h2, S.at_ h3⟩
  · rintro ⟨c, h1, h2, h3⟩
    by_cases h : i = t
    · subst h; exact absurd h3.2 S.loud.1
    · exact ⟨c, ⟨by omega, h1.2⟩, h2, (S.sign (by omega) (by decide)).mpr h3⟩

theorem silent2 {A : Nat → Prop} {i : Nat} (hi : i ≤ t) : Silent2 ct w t A i ↔ Silent2 ct w t' A i := by
  constructor
  · rintro ⟨c, d, h1, h2, h3, h4, h5⟩
    exact ⟨c, d, S.at_ h1, h2, S.at_ h3, h4, S.at_ h5⟩
  · rintro ⟨c, d, h1, h2, h3, h4, h5⟩
    by_cases h : i = t
    · subst h; exact absurd h5.2 S.loud.2
    · by_cases h' : i + 1 = t
      · subst h'; exact absurd h5.2 S.loud.1
      · exact ⟨c, d, ⟨by omega, h1.2⟩, h2, ⟨by omega, h3.2⟩, h4, (S.sign (by omega) (by decide)).mpr h5⟩

theorem skip {i k : Nat} (hi : i ≤ t) (h : Skip ct w t i k) : Skip ct w t' i k ∧ k ≤ t := by
  unfold Skip at h ⊢
  rw [← S.silent hi]
  refine ⟨h, ?_⟩
  rcases h with ⟨⟨c, h1, h2, h3⟩, rfl⟩ | ⟨-, rfl⟩
  · exact h3.1
  · exact hi

theorem skipIU {i k : Nat} (hi : i ≤ t) (h : SkipIU ct w t i k) : SkipIU ct w t' i k ∧ k ≤ t := by
  unfold SkipIU at h ⊢
  rw [← S.silent2 hi]
  refine ⟨h, ?_⟩
  rcases h with ⟨⟨c, d, h1, h2, h3, h4, h5⟩, rfl⟩ | ⟨-, rfl⟩
  · exact h5.1
  · exact hi

theorem skipAny {i k : Nat} (hi : i ≤ t) (h : SkipAny ct w t i k) : SkipAny ct w t' i k ∧ k ≤ t := by
  unfold SkipAny at h ⊢
  rw [← S.silent hi, ← S.silent2 hi]
  refine ⟨h, ?_⟩
  rcases h with ⟨⟨c, h1, h2, h3⟩, rfl⟩ | ⟨-, ⟨c, d, h1, h2, h3, h4, h5⟩, rfl⟩ | ⟨-, -, rfl⟩
  · exact h3.1
  · exact h5.1
  · exact hi

theorem mark {i k : Nat} {m : Tone} (hi : i ≤ t) (h : MarkAt ct w t i m k) : MarkAt ct w t' i m k ∧ k ≤ t ∧ i ≤ k := by
  rcases h with ⟨c, h1, h2, h3, rfl⟩ | ⟨h1, rfl, rfl⟩
  · exact ⟨.inl ⟨c, S.at_ h1, h2, h3, rfl⟩, h1.1, by omega⟩
  · refine ⟨.inr ⟨fun c hc => ?_, rfl, rfl⟩, hi, le_rfl⟩
    by_cases h : k < t
    · exact h1 c ⟨h, hc.2⟩
    · have : k = t := by omega
      subst this
      by_contra hn
      have h1 := S.ok.tone c (by simpa using hn)
      have h2 := S.letter hc.2
      omega

theorem finalAt {i c : Nat} {excl : U16Str} {f : EndConsClass} (h : FinalAt ct w t i excl c f) :
    FinalAt ct w t' i excl c f := ⟨S.at_ h.1, h.2⟩

theorem closed {i k : Nat} {excl : U16Str} {b : Bool} {f : EndConsClass} (h : Closed ct w t i excl k b f) :
    Closed ct w t' i excl k b f := by
  obtain ⟨c, h1, h2, h3⟩ := h
  exact ⟨c, S.finalAt h1, h2, (S.skipAny h1.1.1 h3).1⟩

theorem silentTail {i c : Nat} (h : SilentTail ct w t i c) : SilentTail ct w t' i c := by
  obtain ⟨h1, h2⟩ := h
  have hi : i + 2 ≤ t := by
    rcases h2 with ⟨h2, -⟩ | ⟨d, h2, -⟩ <;> exact h2.1
  refine ⟨(S.endOrStart hi).mp h1, ?_⟩
  rcases h2 with ⟨h2, h3⟩ | ⟨d, h2, h3⟩
  · exact .inl ⟨S.at_ h2, h3⟩
  · exact .inr ⟨d, S.at_ h2, h3⟩

theorem links {i c : Nat} (h : Links ct w t i c) : Links ct w t' i c := by
  rcases h with ⟨d, n, h1, h2, h3, h4⟩ | ⟨d, h1, h2, h3, h4⟩
  · exact .inl ⟨d, n, S.at_ h1, h2, S.at_ h3, h4⟩
  · refine .inr ⟨d, S.at_ h1, h2, h3, ?_⟩
    rintro ⟨-, -, h⟩
    have := h1.1
    have := S.lt
    omega

theorem closedX {i k : Nat} {excl : U16Str} {b : Bool} {f : EndConsClass} (h : ClosedX ct w t i excl k b f) :
    ClosedX ct w t' i excl k b f := by
  obtain ⟨c, h1, h2⟩ := h
  refine ⟨c, S.finalAt h1, ?_⟩
  rcases h2 with ⟨h2, h3⟩ | ⟨h2, h3⟩
  · exact .inl ⟨h2, (S.skipAny h1.1.1 h3).1⟩
  · refine .inr ⟨(S.skipAny h1.1.1 h2).1, ?_⟩
    rcases h3 with ⟨h3, h4, h5⟩ | ⟨h3, h4, h5⟩
    · exact .inl ⟨h3, h4, S.silentTail h5⟩
    · exact .inr ⟨h3, h4, S.links h5⟩

theorem open_ {j : Nat} {v : Vowel} {f : EndConsClass} {m : Tone} {r : Rime} (hj : j ≤ t) (h : Open ct w t j v f m r) :
    Open ct w t' j v f m r := by
  obtain ⟨k, h1, h2⟩ := h
  exact ⟨k, (S.skip hj h1).1, h2⟩

theorem shut {j : Nat} {excl : U16Str} {v : Vowel} {m : Tone} {r : Rime} (h : Shut ct w t j excl v m r) :
    Shut ct w t' j excl v m r := by
  obtain ⟨k, b, f, h1, h2⟩ := h
  exact ⟨k, b, f, S.closed h1, h2⟩

theorem shutX {j : Nat} {excl : U16Str} {v : Vowel} {m : Tone} {r : Rime} (h : ShutX ct w t j excl v m r) :
    ShutX ct w t' j excl v m r := by
  obtain ⟨k, b, f, h1, h2⟩ := h
  exact ⟨k, b, f, S.closedX h1, h2⟩

omit S in
theorem shut_lt {j : Nat} {excl : U16Str} {v : Vowel} {m : Tone} {r : Rime} (h : Shut ct w t j excl v m r) : j < t := by
  obtain ⟨k, b, f, ⟨c, h1, -⟩, -⟩ := h
  exact h1.1.1

omit S in
theorem shutX_lt {j : Nat} {excl : U16Str} {v : Vowel} {m : Tone} {r : Rime} (h : ShutX ct w t j excl v m r) :
    j < t := by
  obtain ⟨k, b, f, ⟨c, h1, -⟩, -⟩ := h
  exact h1.1.1

theorem ruAt {i : Nat} (h : RuAt w t i) : RuAt w t' i :=
  ⟨S.at_ h.1, fun h' => h.2.1 ((S.sign h.1.1 (by decide)).mpr h'), fun h' => h.2.2 ((S.sign h.1.1 (by decide)).mpr h')⟩

theorem withRu {i c : Nat} {snd : InitConsSound} {cls : InitConsClass} {o : Onset} (h : WithRu ct w t i c snd cls o) :
    WithRu ct w t' i c snd cls o ∧ o.stop = i + 2 := by
  refine ⟨?_, ?_⟩
  · rcases h with h | h | h | h | ⟨h1, ⟨d, f, h2⟩, h3⟩ | h
    · exact .inl h
    · exact .inr (.inl h)
    · exact .inr (.inr (.inl h))
    · exact .inr (.inr (.inr (.inl h)))
    · exact .inr (.inr (.inr (.inr (.inl ⟨h1, ⟨d, f, S.finalAt h2⟩, h3⟩))))
    · exact .inr (.inr (.inr (.inr (.inr h))))
  · rcases h with ⟨-, rfl⟩ | ⟨-, rfl | rfl⟩ | ⟨-, rfl⟩ | ⟨-, rfl⟩ | ⟨-, -, rfl⟩ | ⟨-, v, -, ⟨-, rfl⟩ | rfl⟩ <;> rfl

theorem onsetAt {i : Nat} {l : Bool} {o : Onset} (hi : i < t) (h : OnsetAt ct w t i l o) :
    OnsetAt ct w t' i l o ∧ o.stop ≤ t ∧ i < o.stop ∧ o.stop ≤ i + 2 := by
  obtain ⟨c, snd, cls, h1, h2, h3⟩ := h
  rcases h3 with rfl | ⟨d, snd2, cls2, h3, h4, h5, h6⟩ | ⟨h3, h4⟩
  · exact ⟨⟨c, snd, cls, h1, h2, .inl rfl⟩, hi, Nat.lt_succ_self _, Nat.le_succ _⟩
  · have hs : o.stop = i + 2 := by
      rcases h6 with ⟨cs, s, -, -, -, rfl⟩ | ⟨-, -, -, rfl⟩ | ⟨-, -, rfl⟩ | rfl <;> rfl
    refine ⟨⟨c, snd, cls, h1, h2, .inr (.inl ⟨d, snd2, cls2, S.at_ h3, h4, ?_, h6⟩)⟩, ?_⟩
    · rintro ⟨rfl, h⟩
      by_cases hlt : i + 2 < t
      · exact h5 ⟨rfl, hlt, h.2⟩
      · have := h3.1
        have ht : i + 1 + 1 = t := by omega
        exact S.rr (i + 1) ht ⟨h3.2, by rw [← ht]; exact h.2⟩
    · have := h3.1
      omega
  · obtain ⟨h5, h6⟩ := S.withRu h4
    refine ⟨⟨c, snd, cls, h1, h2, .inr (.inr ⟨S.ruAt h3, h5⟩)⟩, ?_⟩
    have := h3.1.1
    omega

theorem wholeAt {i : Nat} {o : Onset} {r : Rime} (h : WholeAt ct w t i o r) (hr : r.stop < t) : WholeAt ct w t' i o r := by
  obtain ⟨c, snd, cls, h1, h2, h3⟩ := h
  refine ⟨c, snd, cls, h1, h2, ?_⟩
  rcases h3 with ⟨h3, h4⟩ | ⟨h3, h4, h5, h6, h7⟩ | ⟨h3, h4, h5, h6⟩ | ⟨h3, h4, h5, h6⟩
  · exact .inl ⟨S.startAt h3, h4⟩
  · exact .inr (.inl ⟨h3, S.at_ h4, h5, h6.imp S.at_ S.at_, h7⟩)
  · refine .inr (.inr (.inl ⟨S.at_ h3, h4, ?_, ?_⟩))
    · have : i + 2 < t := by
        rcases h6 with ⟨-, -, -, rfl⟩ | ⟨h, -⟩ | ⟨h, -⟩
        · exact hr
        · exact h.1
        · exact h.1
      exact fun h => h5 ((S.at_lt this).mpr h)
    · rcases h6 with ⟨h6, h7⟩ | ⟨h6, h7⟩ | ⟨h6, h7⟩
      · exact .inl ⟨S.startAt h6, h7⟩
      · exact .inr (.inl ⟨S.at_ h6, h7⟩)
      · exact .inr (.inr ⟨S.at_ h6, h7⟩)
  · refine .inr (.inr (.inr ⟨S.ruAt h3, ?_, h5, h6⟩))
    refine h4.imp_left fun h => ⟨h.1, ?_⟩
    rintro ⟨d, f, hf⟩
    refine h.2 ⟨d, f, ⟨?_, hf.1.2⟩, hf.2⟩
    rw [h6] at hr
    exact hr

theorem hanRime {j : Nat} {r : Rime} (h : HanRime ct w t j r) : HanRime ct w t' j r := by
  obtain ⟨h1, m, k, h2, h3⟩ := h
  obtain ⟨h2', hk, -⟩ := S.mark h1.1 h2
  refine ⟨S.at_ h1, m, k, h2', ?_⟩
  rcases h3 with ⟨h3, h4, h5⟩ | ⟨h3, h4, h5⟩ | ⟨h3, h4, h5⟩ | ⟨h3, h4, h5⟩
  · exact .inl ⟨S.at_ h3, S.at_ h4, S.open_ h4.1 h5⟩
  · exact .inr (.inl ⟨S.at_ h3, fun h => h4 ((S.sign h3.1 (by decide)).mpr h), S.open_ h3.1 h5⟩)
  · exact .inr (.inr (.inl ⟨fun h => h3 ((S.at_lt (shutX_lt h5)).mpr h), h4, S.shutX h5⟩))
  · exact .inr (.inr (.inr ⟨fun h => h3 ((S.at_lt (shut_lt h5)).mpr h), h4, S.shut h5⟩))

theorem signFinal {k : Nat} {v : Vowel} {m : Tone} {r : Rime} (h : SignFinal ct w t k v m r) :
    SignFinal ct w t' k v m r := by
  obtain ⟨h1, h2⟩ := h
  have hk : k < t := by
    rcases h2 with ⟨-, h, -⟩ | ⟨-, -, h⟩ | ⟨-, -, h⟩ | ⟨-, -, -, h⟩
    · exact h.1
    · exact shut_lt h
    · exact shut_lt h
    · exact shutX_lt h
  refine ⟨fun c hc => h1 c ((S.at_lt hk).mpr hc), ?_⟩
  rcases h2 with ⟨h2, h3, h4⟩ | ⟨h2, h3, h4⟩ | ⟨h2, h3, h4⟩ | ⟨h2, h3, h4, h5⟩
  · exact .inl ⟨h2, S.at_ h3, S.open_ hk h4⟩
  · exact .inr (.inl ⟨h2, fun h => h3 ((S.at_lt hk).mpr h), S.shut h4⟩)
  · exact .inr (.inr (.inl ⟨h2, h3, S.shut h4⟩))
  · exact .inr (.inr (.inr ⟨h2, h3, h4, S.shutX h5⟩))

theorem signRime {j : Nat} {r : Rime} (h : SignRime ct w t j r) : SignRime ct w t' j r := by
  obtain ⟨c, v, m, k, h1, h2, h3, h4, h5⟩ := h
  obtain ⟨h4', hk, hjk⟩ := S.mark h1.1 h4
  refine ⟨c, v, m, k, S.at_ h1, h2, h3, h4', ?_⟩
  rcases h5 with ⟨h5, ⟨x, h6, h7⟩, h8⟩ | ⟨h5, h6⟩
  · exact .inl ⟨h5, ⟨x, S.at_ h6, h7⟩, S.signFinal h8⟩
  · refine .inr ⟨?_, ?_⟩
    · rintro ⟨rfl, x, hx, hld⟩
      by_cases hlt : k < t
      · exact h5 ⟨rfl, x, ⟨hlt, hx.2⟩, hld⟩
      · have hkt : k = t := by omega
        have hc : c = ch!"ื" := by
          simp only [signVowels, List.mem_cons, Prod.mk.injEq, List.not_mem_nil, or_false] at h3
          rcases h3 with ⟨rfl, h⟩ | ⟨rfl, h⟩ | ⟨rfl, h⟩ | ⟨rfl, -⟩ | ⟨rfl, h⟩ | ⟨rfl, h⟩
          · exact absurd h (by decide)
          · exact absurd h (by decide)
          · exact absurd h (by decide)
          · rfl
          · exact absurd h (by decide)
          · exact absurd h (by decide)
        subst hc
        rcases h4 with ⟨y, g1, g2, -, g3⟩ | ⟨-, -, g3⟩
        · have := S.uee j y (by omega) h1.2 g1.2
          rw [this] at g2; cases g2
        · exact (S.before j _ (by omega) h1.2).2 (by decide)
    · rw [← S.silent hk, ← S.silent2 hk]
      rcases h6 with ⟨h6, h7⟩ | ⟨h6, h7⟩ | ⟨h6, h7, h8⟩
      · exact .inl ⟨h6, h7.imp_right S.signFinal⟩
      · exact .inr (.inl ⟨h6, h7⟩)
      · exact .inr (.inr ⟨h6, h7, h8.imp_right S.signFinal⟩)

theorem shortORime {j : Nat} {r : Rime} (h : ShortORime ct w t j r) : ShortORime ct w t' j r := by
  obtain ⟨h1, h2, k, h3, h4⟩ := h
  exact ⟨S.at_ h1, S.at_ h2, k, (S.skip h2.1 h3).1, S.shut h4⟩

theorem roRime {o : Onset} {k : Nat} {m : Tone} {r : Rime} (h : RoRime ct w t o k m r) : RoRime ct w t' o k m r := by
  obtain ⟨h1, h2⟩ := h
  refine ⟨S.at_ h1, ?_⟩
  rcases h2 with ⟨h2, h3⟩ | ⟨k', h2, h3, h4⟩
  · exact .inl ⟨h2, S.open_ h1.1 h3⟩
  · refine .inr ⟨k', ?_, S.at_ h3, ?_⟩
    · split_ifs at h2 ⊢
      · exact h2
      · exact (S.skip h1.1 h2).1
    · rw [← S.silent h3.1]
      exact h4.imp (S.open_ h3.1) fun h => ⟨h.1, S.shutX h.2⟩

theorem plainRime {o : Onset} {l : Bool} {j : Nat} {r : Rime} (hj : j ≤ t) (h : PlainRime ct w t o l j r) :
    PlainRime ct w t' o l j r := by
  obtain ⟨m, k, h1, h2⟩ := h
  obtain ⟨h1', hk, -⟩ := S.mark hj h1
  refine ⟨m, k, h1', ?_⟩
  rcases h2 with ⟨h2, h3⟩ | ⟨h2, h3⟩ | ⟨h2, h3⟩ | ⟨h2, h3⟩ | ⟨h2, h3⟩ | h2 | ⟨h2, h3, h4, h5⟩ | ⟨v, c, h2, h3, h4, h5, h6⟩
  · exact .inl ⟨S.at_ h2, S.open_ h2.1 h3⟩
  · refine .inr (.inl ⟨S.at_ h2, h3.imp (S.open_ h2.1) ?_⟩)
    rintro ⟨k', h4, h5⟩
    exact ⟨k', (S.skip h2.1 h4).1, S.shutX h5⟩
  · exact .inr (.inr (.inl ⟨S.at_ h2, S.open_ h2.1 h3⟩))
  · exact .inr (.inr (.inr (.inl ⟨S.at_ h2, S.shut h3⟩)))
  · refine .inr (.inr (.inr (.inr (.inl ⟨S.at_ h2, h3.imp (S.open_ h2.1) ?_⟩))))
    rintro ⟨k', h4, h5⟩
    exact ⟨k', (S.skip h2.1 h4).1, S.shut h5⟩
  · exact .inr (.inr (.inr (.inr (.inr (.inl (S.roRime h2))))))
  · exact .inr (.inr (.inr (.inr (.inr (.inr (.inl ⟨h2, h3, h4, S.shut h5⟩))))))
  · exact .inr (.inr (.inr (.inr (.inr (.inr (.inr ⟨v, c, h2, S.at_ h3, h4, h5, h6.imp_right S.shutX⟩))))))

theorem consRime {o : Onset} {l : Bool} {r : Rime} (hj : o.stop ≤ t) (h : ConsRime ct w t o l r) :
    ConsRime ct w t' o l r :=
  h.imp S.hanRime <| Or.imp S.signRime <| Or.imp S.shortORime (S.plainRime hj)

theorem midRime {sign mid j : Nat} {short long : Vowel} {full : Bool} {r : Rime}
    (h : MidRime ct w t sign mid short long j full r) : MidRime ct w t' sign mid short long j full r := by
  obtain ⟨h1, m, k, h2, h3, h4⟩ := h
  obtain ⟨h2', -, -⟩ := S.mark h1.1 h2
  refine ⟨S.at_ h1, m, k, h2', S.at_ h3, ?_⟩
  rcases h4 with ⟨h4, h5⟩ | ⟨h4, h5⟩
  · exact .inl ⟨S.at_ h4, S.open_ h4.1 h5⟩
  · refine .inr ⟨fun h => h4 ((S.sign h3.1 (by decide)).mpr h), h5.imp (S.open_ h3.1) ?_⟩
    rintro ⟨k', h6, h7⟩
    refine ⟨k', (S.skip h3.1 h6).1, ?_⟩
    split_ifs at h7 ⊢
    · exact S.shutX h7
    · exact S.shut h7

/-- Nothing is silenced at the break. -/
theorem skip_t : Skip ct w t' t t := .inr ⟨by rw [← S.silent le_rfl]; rintro ⟨c, h, -⟩; exact absurd h.1 (lt_irrefl _), rfl⟩

/-- "เ" read to the break is read so without it. -/
theorem eOpen {i : Nat} {o : Onset} {m : Tone} (hi : i < t) (hit : t ≤ i + 4) (he : w[i]? = some ch!"เ") (hj : o.stop ≤ t)
    (hm : MarkAt ct w t' o.stop m t) (hp : NotPreA o) : ERime ct w t' o ⟨t, false, VW.EE, .NONE, m⟩ := by
  obtain ⟨x, hx, -⟩ := S.start
  have hlet := S.letter hx
  have hopen : Open ct w t' t VW.EE .NONE m ⟨t, false, VW.EE, .NONE, m⟩ := ⟨t, S.skip_t, rfl⟩
  refine .inr (.inr (.inr (.inr (.inr ⟨hj.trans_lt S.lt, m, t, hm, ?_⟩))))
  by_cases ho : x = ch!"อ"
  · subst ho
    exact .inr (.inl ⟨⟨S.lt, hx⟩, .inl ⟨hp, hopen⟩⟩)
  · refine .inr (.inr (.inr (.inr (.inr ⟨x, ⟨S.lt, hx⟩, ?_, ?_, ?_, hp, .inl hopen⟩))))
    · simp only [List.mem_cons, List.not_mem_nil, or_false]
      rintro (h | h | h)
      · exact ho h
      · subst h; omega
      · subst h; omega
    · rintro ⟨rfl, h⟩
      exact S.ey i hi hit he hx h
    · rintro ⟨-, h⟩
      simp only [List.mem_cons, List.not_mem_nil, or_false] at h
      rcases h with h | h | h | h <;> subst h <;> omega

theorem eRime {i : Nat} {l : Bool} {o : Onset} {r : Rime} (hi : i + 1 < t) (he : w[i]? = some ch!"เ")
    (ho : OnsetAt ct w t (i + 1) l o) (h : ERime ct w t o r) : ERime ct w t' o r := by
  obtain ⟨-, hj, hj1, hj2⟩ := S.onsetAt hi ho
  rcases h with ⟨h1, h2, rfl⟩ | ⟨h1, m, k, k', h2, h3, h4⟩ | h | h | ⟨h1, h2⟩ | ⟨h1, m, k, h2, h3⟩
  · have hjt : o.stop = t := by omega
    rw [hjt]
    refine S.eOpen (m := .SAMAN) (by omega) (by omega) he hj ?_ h2
    rw [hjt]
    refine .inr ⟨fun c hc => ?_, rfl, rfl⟩
    by_contra hn
    have h1 := S.ok.tone c (by simpa using hn)
    have h2 := S.letter hc.2
    omega
  · obtain ⟨h2', hk, -⟩ := S.mark h1.1 h2
    exact .inr (.inl ⟨S.at_ h1, m, k, k', h2', (S.skip hk h3).1, S.shut h4⟩)
  · exact .inr (.inr (.inl (S.midRime h)))
  · exact .inr (.inr (.inr (.inl (S.midRime h))))
  · exact .inr (.inr (.inr (.inr (.inl ⟨S.at_ h1, S.shut h2⟩))))
  · obtain ⟨h2', hk, hjk⟩ := S.mark hj h2
    rcases h3 with ⟨h3, rfl⟩ | h3
    · have hkt : k = t := by omega
      subst hkt
      rcases h2 with ⟨c, g1, g2, g3, g4⟩ | ⟨-, -, g4⟩
      · refine S.eOpen (by omega) (by omega) he hj h2' ?_
        by_contra hp
        simp only [NotPreA, not_or, not_not] at hp
        obtain ⟨hp1, hp2⟩ := hp
        obtain ⟨x, snd, cls, e1, e2, e3⟩ := ho
        rcases e3 with rfl | ⟨d, snd2, cls2, e3, e4, e5, e6⟩ | ⟨e3, e4⟩
        · exact hp1 rfl
        · have hd : o.stop = i + 3 ∧ o.sound = snd2 := by
            rcases e6 with ⟨cs, s, -, -, -, rfl⟩ | ⟨-, -, -, rfl⟩ | ⟨-, -, rfl⟩ | rfl
            · exact absurd rfl hp1
            · exact absurd rfl hp1
            · exact absurd rfl hp1
            · exact ⟨rfl, rfl⟩
          have hd2 : d = ch!"อ" := by
            have := e4.2.1
            rw [← hd.2, hp2] at this
            simpa [soundLetters] using this
          subst hd2
          have := S.eoa i c (by omega) he e3.2 (by rw [hd.1] at g1; exact g1.2)
          rw [this] at g2; cases g2
        · rcases e4 with ⟨-, rfl⟩ | ⟨-, rfl | rfl⟩ | ⟨-, rfl⟩ | ⟨-, rfl⟩ | ⟨-, -, rfl⟩ | ⟨-, v, -, ⟨-, rfl⟩ | rfl⟩
          all_goals first
            | exact hp1 rfl
            | cases hp2
      · omega
    · refine .inr (.inr (.inr (.inr (.inr ⟨h1.trans S.lt, m, k, h2', .inr ?_⟩))))
      rcases h3 with ⟨h3, h4⟩ | ⟨h3, h4, h5⟩ | ⟨h3, h4⟩ | ⟨h3, h4, h5⟩ | ⟨c, h3, h4, h5, h6, h7, h8⟩
      · refine .inl ⟨S.at_ h3, ?_⟩
        rcases h4 with ⟨h4, h5⟩ | ⟨h4, h5⟩ | ⟨h4, h5⟩
        · exact .inl ⟨h4, S.open_ hk h5⟩
        · exact .inr (.inl ⟨S.at_ h4, S.open_ h4.1 h5⟩)
        · exact .inr (.inr ⟨fun h => h4 ((S.sign h3.1 (by decide)).mpr h), S.open_ h3.1 h5⟩)
      · exact .inr (.inl ⟨S.at_ h3, h4, S.open_ h3.1 h5⟩)
      · refine .inr (.inr (.inl ⟨S.at_ h3, ?_⟩))
        rcases h4 with ⟨h4, h5⟩ | ⟨h4, h5⟩
        · exact .inl ⟨S.at_ h4, S.open_ h4.1 h5⟩
        · exact .inr ⟨fun h => h4 ((S.sign h3.1 (by decide)).mpr h), S.open_ h3.1 h5⟩
      · exact .inr (.inr (.inr (.inl ⟨S.at_ h3, (S.endOrStart h3.1).mp h4, S.open_ h3.1 h5⟩)))
      · refine .inr (.inr (.inr (.inr ⟨c, S.at_ h3, h4, ?_, h6, h7, h8.imp (S.open_ hk) ?_⟩)))
        · rw [← S.endOrStart h3.1]; exact h5
        · rintro ⟨k', h9, h10⟩
          exact ⟨k', (S.skip hk h9).1, S.shutX h10⟩

theorem leadRime {v j : Nat} {r : Rime} (hj : j ≤ t) (h : LeadRime ct w t v j r) : LeadRime ct w t' v j r := by
  obtain ⟨m, k, h1, h2⟩ := h
  obtain ⟨h1', hk, -⟩ := S.mark hj h1
  refine ⟨m, k, h1', ?_⟩
  rcases h2 with ⟨h2, h3⟩ | ⟨h2, h3⟩ | ⟨h2, h3⟩ | ⟨h2, h3⟩
  · refine .inl ⟨h2, ?_⟩
    rcases h3 with ⟨h3, h4⟩ | ⟨h3, h4⟩ | ⟨h3, h4, h5⟩
    · exact .inl ⟨S.at_ h3, S.open_ h3.1 h4⟩
    · exact .inr (.inl ⟨S.at_ h3, S.shut h4⟩)
    · refine .inr (.inr ⟨fun h => h3 ((S.sign hk (by decide)).mpr h), fun h => h4 ((S.sign hk (by decide)).mpr h),
        h5.imp (S.open_ hk) ?_⟩)
      rintro ⟨k', h6, h7⟩
      exact ⟨k', (S.skip hk h6).1, S.shut h7⟩
  · refine .inr (.inl ⟨h2, ?_⟩)
    rcases h3 with ⟨h3, h4⟩ | ⟨h3, h4⟩
    · refine .inl ⟨S.at_ h3, ?_⟩
      rw [← S.silent h3.1]
      refine h4.imp_right fun h => ⟨h.1, ?_⟩
      obtain ⟨k', h5, h6⟩ := h.2
      exact ⟨k', (S.skipIU h3.1 h5).1, h6⟩
    · refine .inr ⟨fun h => h3 ((S.sign hk (by decide)).mpr h), ?_⟩
      rw [← S.silent hk, ← S.silent2 hk]
      rcases h4 with ⟨h4, h5⟩ | h4 | ⟨h4, h5, h6⟩
      · exact .inl ⟨h4, h5.imp_right S.shutX⟩
      · exact .inr (.inl h4)
      · exact .inr (.inr ⟨h4, h5, h6.imp_right S.shutX⟩)
  · refine .inr (.inr (.inl ⟨h2, h3.imp (S.open_ hk) fun h => ?_⟩))
    exact ⟨h.1, S.at_ h.2.1, (S.endOrStart h.2.1.1).mp h.2.2.1, h.2.2.2⟩
  · refine .inr (.inr (.inr ⟨h2, h3.imp (S.open_ hk) fun h => ?_⟩))
    exact ⟨h.1, S.at_ h.2.1, (S.endOrStart h.2.1.1).mp h.2.2.1, h.2.2.2⟩

theorem ruRime {i : Nat} {r : Rime} (hi : i < t) (hru : w[i]? = some ch!"ฤ" ∨ w[i]? = some ch!"ฦ")
    (h : RuRime ct w t i r) : RuRime ct w t' i r := by
  have hlt := S.lt
  rcases h with ⟨h1, -⟩ | ⟨h1, h2⟩ | ⟨d, h1, h2, h3⟩
  · have hit : i + 1 = t := by omega
    rcases hru with h | h <;> exact absurd (S.before i _ hit h).2 (by decide)
  · exact .inr (.inl ⟨h1.imp S.at_ S.at_, h2⟩)
  · have key : (d ∈ finalLetters .NONE ∨ (i + 2 < t ∧ ¬ StartAt ct w t (i + 2))) ↔
        (d ∈ finalLetters .NONE ∨ (i + 2 < t' ∧ ¬ StartAt ct w t' (i + 2))) := by
      refine or_congr_right ?_
      have hi2 : i + 2 ≤ t := h1.1
      rcases Nat.lt_or_eq_of_le hi2 with h | h
      · refine ⟨fun g => ⟨by omega, ?_⟩, fun g => ⟨h, fun g' => g.2 (S.startAt g')⟩⟩
        rintro ⟨c, g1, g2⟩
        exact g.2 ⟨c, ⟨h, g1.2⟩, g2⟩
      · refine ⟨fun g => absurd g.1 (by omega), fun g => absurd ?_ g.2⟩
        rw [h]; exact S.startAt_t
    rw [key] at h3
    exact .inr (.inr ⟨d, S.at_ h1, h2, h3.imp_right fun h => ⟨h.1, S.shutX h.2⟩⟩)

/-- A syllable spelled before the break is spelled so without it. -/
theorem spelled {i : Nat} {l : Bool} {o : Onset} {r : Rime} (hi : i < t) (h : Spelled ct w t i l o r) :
    Spelled ct w t' i l o r := by
  obtain ⟨c, h1, h2⟩ := h
  refine ⟨c, h1, ?_⟩
  rcases h2 with ⟨h2, h3⟩ | ⟨h2, h3, h4, h5⟩ | ⟨h2, h3, h4, h5⟩ | ⟨h2, h3, h4⟩
  · refine .inl ⟨h2, ?_⟩
    rcases h3 with ⟨h3, h4, h5⟩ | ⟨h3, h4⟩
    · exact .inl ⟨(S.onsetAt hi h3).1, h4.trans S.lt, S.consRime h4.le h5⟩
    · exact .inr ⟨S.wholeAt h3 h4, h4.trans S.lt⟩
  · subst h2
    exact .inr (.inl ⟨rfl, h3.trans S.lt, (S.onsetAt h3 h4).1, S.eRime h3 h1 h4 h5⟩)
  · have hi1 : i + 1 < t := by
      by_contra hn
      have := (S.before i c (by omega) h1).1
      rw [this] at h2; cases h2
    obtain ⟨g1, g2, -⟩ := S.onsetAt hi1 h4
    exact .inr (.inr (.inl ⟨h2, h3, g1, S.leadRime g2 h5⟩))
  · refine .inr (.inr (.inr ⟨h2, h3, S.ruRime hi ?_ h4⟩))
    rcases h2 with rfl | rfl
    · exact .inl h1
    · exact .inr h1

end Soft

/-- A token up to a break, and the same token without breaks. -/
theorem soft_of_break (hct : ct.Ok) (S : SoftBreak ct w look t) (hlt : t < t') (hle : t' ≤ w.length)
    (hend : t' = w.length ∨ ¬ TextAt ct w t') : Soft ct w t t' := by
  refine ⟨hct, hlt, ?_, S.loud, S.before, S.uee, S.rr, fun i h1 h2 h3 h4 h => ?_, S.eoa⟩
  · obtain ⟨x, h1, h2⟩ := S.start
    exact ⟨x, h1.2, h2⟩
  · obtain ⟨g1, g2⟩ := S.ey i h1 h2 h3 h4
    rcases h with h | ⟨c, h, hc⟩
    · have : t' = t + 1 := by omega
      rw [this] at hend
      rcases hend with h | h
      · obtain ⟨c, hc, -⟩ := g1
        have := (List.getElem?_eq_some_iff.mp hc).1
        omega
      · exact h g1
    · exact g2 ⟨c, ⟨h.1.trans_le hle, h.2⟩, hc⟩

variable {brk : List Int}

/-- The token without breaks reaches at least as far, and further only over a soft break. -/
theorem token_nobreak (hb : ∀ n : Nat, (n : Int) ∈ brk → 0 < n → n < w.length → SoftBreak ct w look n) {p : Nat}
    (h : TokenTo ct w brk p t) : ∃ t', TokenTo ct w [] p t' ∧ (t = t' ∨ (t < t' ∧ SoftBreak ct w look t)) := by
  classical
  obtain ⟨h1, h2, h3, h4, h5⟩ := h
  have hex : ∃ n, t ≤ n ∧ (n = w.length ∨ ¬ TextAt ct w n) := ⟨w.length, h2, .inl rfl⟩
  obtain ⟨g1, g2⟩ := Nat.find_spec hex
  have gmin := fun {m} => Nat.find_min (H := hex) (m := m)
  generalize Nat.find hex = t' at g1 g2 gmin
  have hlen : t' ≤ w.length := by
    by_contra hn
    exact gmin (m := w.length) (by omega) ⟨h2, .inl rfl⟩
  refine ⟨t', ⟨h1.trans_le g1, hlen, fun i hi hi' => ?_, ?_, ?_⟩, ?_⟩
  · by_cases hit : i < t
    · exact h3 i hi hit
    · by_contra hn
      exact gmin hi' ⟨by omega, .inr hn⟩
  · simpa [nextBreak] using hlen
  · rcases g2 with g2 | g2
    · exact .inl (by simpa [nextBreak] using g2)
    · by_cases hl : t' = w.length
      · exact .inl (by simpa [nextBreak] using hl)
      · exact .inr ⟨by omega, g2⟩
  · rcases Nat.eq_or_lt_of_le g1 with g | g
    · exact .inl g
    · refine .inr ⟨g, ?_⟩
      rcases h5 with h5 | ⟨-, h5⟩
      · unfold nextBreak at h5
        cases hf : brk.find? fun b => decide (b > (p : Int)) with
        | none => rw [hf] at h5; simp at h5; omega
        | some b =>
          rw [hf] at h5
          simp only [Option.getD_some] at h5
          exact hb t (h5 ▸ List.mem_of_find?_eq_some hf) (by omega) (by omega)
      · exact absurd ⟨le_rfl, .inr h5⟩ (gmin g)

/-- Abbreviations and dictionary words at `p` are the same with the break. -/
theorem abbr_nobreak {p q : Nat} (hp : p < t) (hlt : t < t') (hle : t' ≤ w.length) (S : SoftBreak ct w look t) :
    IsAbbr ct w p t q ↔ IsAbbr ct w p t' q := by
  constructor
  · rintro ⟨h1, h2, h3⟩
    refine ⟨h1, h2.trans hlt.le, ?_⟩
    rcases h3 with h3 | ⟨rfl, h3, c, h4, h5⟩
    · exact .inl h3
    · have := S.alone p c h3 h1 h4
      rw [this] at h5; cases h5
  · rintro ⟨h1, h2, h3⟩
    rcases h3 with h3 | ⟨rfl, h3, -⟩
    · refine ⟨h1, ?_, .inl h3⟩
      by_contra hn
      exact S.abbr p q hp (by omega) ⟨h1, h2.trans hle, .inl h3⟩
    · omega

theorem word_nobreak {p q : Nat} {data : Str} (hp : p < t) (hlt : t < t') (S : SoftBreak ct w look t) :
    WordAt ct w look p t q data ↔ WordAt ct w look p t' q data := by
  constructor
  · rintro ⟨h1, h2, h3, h4, h5⟩
    refine ⟨h1, h2, h3, h4.trans hlt.le, .inr ?_⟩
    rcases h5 with rfl | h5
    · exact S.start
    · exact h5
  · rintro ⟨h1, h2, h3, h4, h5⟩
    have hq : q ≤ t := by
      by_contra hn
      rw [S.word p q hp (by omega) h2] at h3
      cases h3
    refine ⟨h1, h2, h3, hq, ?_⟩
    rcases h5 with rfl | h5
    · omega
    · exact .inr h5

/-- With soft breaks every step of a reading is one without breaks. -/
theorem rule_nobreak (hct : ct.Ok) (hb : ∀ n : Nat, (n : Int) ∈ brk → 0 < n → n < w.length → SoftBreak ct w look n)
    {c c' : Config} (h : Rule ct w look brk c c') : Rule ct w look [] c c' := by
  cases h with
  | other h => exact .other h
  | word h1 h2 h3 h4 =>
    obtain ⟨t', h1', rfl | ⟨hlt, S⟩⟩ := token_nobreak hb h1
    · exact .word h1' h2 h3 h4
    · exact .word h1' ((word_nobreak h1.1 hlt S).mp h2) h3 h4
  | abbr h1 h2 h3 h4 =>
    obtain ⟨t', h1', rfl | ⟨hlt, S⟩⟩ := token_nobreak hb h1
    · exact .abbr h1' h2 h3 h4
    · exact .abbr h1' (fun q data h => h2 q data ((word_nobreak h1.1 hlt S).mpr h))
        ((abbr_nobreak h1.1 hlt h1'.2.1 S).mp h3) h4
  | syl h1 h2 h3 h4 =>
    obtain ⟨t', h1', rfl | ⟨hlt, S⟩⟩ := token_nobreak hb h1
    · exact .syl h1' h2 h3 h4
    · refine .syl h1' (fun q data h => h2 q data ((word_nobreak h1.1 hlt S).mpr h))
        (fun q h => h3 q ((abbr_nobreak h1.1 hlt h1'.2.1 S).mpr h)) ?_
      refine (soft_of_break hct S hlt h1'.2.1 ?_).spelled h1.1 h4
      rcases h1'.2.2.2.2 with h | h
      · exact .inl (by simpa [nextBreak] using h)
      · exact .inr h.2
  | dot h1 h2 h3 h4 =>
    obtain ⟨t', h1', rfl | ⟨hlt, S⟩⟩ := token_nobreak hb h1
    · exact .dot h1' h2 h3 h4
    · exact .dot h1' (fun q data h => h2 q data ((word_nobreak h1.1 hlt S).mpr h))
        (fun q h => h3 q ((abbr_nobreak h1.1 hlt h1'.2.1 S).mpr h)) h4

theorem ruleReading_nobreak (hct : ct.Ok)
    (hb : ∀ n : Nat, (n : Int) ∈ brk → 0 < n → n < w.length → SoftBreak ct w look n) {es : List (Entry Syl)}
    (h : RuleReading ct w look brk es) : RuleReading ct w look [] es := by
  obtain ⟨c, h1, h2, h3⟩ := h
  refine ⟨c, ?_, h2, h3⟩
  clear h2 h3
  induction h1 with
  | refl => exact .refl
  | tail _ h ih => exact ih.tail (rule_nobreak hct hb h)

end Thpronun
