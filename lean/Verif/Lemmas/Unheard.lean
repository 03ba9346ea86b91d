import Verif.Lemmas.Heard

/-! # All consonants of a spelled syllable are accounted for -/

namespace Thpronun.Heard
open Res Spec DAG

section
variable {ct : CType} {look : List Nat → Option Str} {w : U16Str} {t : Nat}

/-- The consonants from `j` to before `k` are silenced or belong to the vowel. -/
def Cov (ct : CType) (w : U16Str) (v : Vowel) (j k : Nat) : Prop :=
  ∀ m c, j ≤ m → m < k → w[m]? = some c → ct.isCons c = true → Silenced ct w m ∨ VowelLetter w v m c

/-- The consonants of a rime with the vowel `v` from `j` on: a final one, the others are not heard. -/
def RA (ct : CType) (w : U16Str) (v : Vowel) (j : Nat) (r : Rime) : Prop :=
  r.vowel = v ∧ j ≤ r.stop ∧ ∃ f : Option Nat,
    (∀ q, f = some q → j ≤ q ∧ q ≤ r.stop ∧ ∃ c, w[q]? = some c ∧ c ∈ finalLetters r.final ∧ r.final ≠ .NONE) ∧
    ∀ m c, j ≤ m → m < r.stop → w[m]? = some c → ct.isCons c = true → f = some m ∨ Silenced ct w m ∨
      (c = ch!"ร" ∧ ∃ j d, f = some j ∧ m = j + 1 ∧ w[j]? = some d ∧ d ∈ u!"กคชตท") ∨
      ((∀ j, f = some j → m < j) ∧ VowelLetter w v m c)

variable {v : Vowel}

theorem cov_nil {j : Nat} : Cov ct w v j j := fun m c h1 h2 => by omega

theorem cov_append {i j k : Nat} (h : Cov ct w v i j) (h' : Cov ct w v j k) : Cov ct w v i k := fun m c h1 h2 => by
  rcases Nat.lt_or_ge m j with h3 | h3
  · exact h m c h1 h3
  · exact h' m c h3 h2

theorem cov_one {j a : Nat} (h : At w t j a) (ha : ct.isCons a = true → Silenced ct w j ∨ VowelLetter w v j a) : Cov ct w v j (j + 1) := by
  intro m c h1 h2 h3 h4
  have : m = j := by omega
  subst this
  rw [h.2] at h3
  cases h3
  exact ha h4

theorem ra_append {i j : Nat} {r : Rime} (hij : i ≤ j) (h : Cov ct w v i j) (h' : RA ct w v j r) : RA ct w v i r := by
  obtain ⟨h0, h1, f, h2, h3⟩ := h'
  refine ⟨h0, hij.trans h1, f, fun q hq => ?_, fun m c k1 k2 k3 k4 => ?_⟩
  · obtain ⟨k1, k2⟩ := h2 q hq
    exact ⟨hij.trans k1, k2⟩
  · rcases Nat.lt_or_ge m j with k5 | k5
    · refine .inr ((h m c k1 k5 k3 k4).imp_right fun k6 => .inr ⟨fun q hq => ?_, k6⟩)
      have := (h2 q hq).1
      omega
    · exact h3 m c k5 k2 k3 k4

theorem ra_cov {j k : Nat} {b : Bool} {f : EndConsClass} {m : Tone} (hjk : j ≤ k) (h : Cov ct w v j k) :
    RA ct w v j ⟨k, b, v, f, m⟩ :=
  ⟨rfl, hjk, none, fun q hq => (by cases hq), fun m c h1 h2 h3 h4 => .inr ((h m c h1 h2 h3 h4).imp_right fun h5 =>
    .inr ⟨fun q hq => (by cases hq), h5⟩)⟩

theorem no_letter {m c : Nat} : ¬ VowelLetter w (-1) m c := by
  rintro (⟨-, h, -⟩ | ⟨-, h⟩ | ⟨-, h⟩ | ⟨-, h⟩) <;> revert h <;> decide

/-- A final at `j`, after which only silenced letters follow. -/
theorem ra_fin {j k c : Nat} {b : Bool} {f : EndConsClass} {m : Tone} (hc : At w t j c) (hf : c ∈ finalLetters f)
    (hn : f ≠ .NONE) (hjk : j ≤ k) (h : Cov ct w (-1) (j + 1) k) : RA ct w v j ⟨k, b, v, f, m⟩ := by
  refine ⟨rfl, hjk, some j, fun q hq => ?_, fun m c h1 h2 h3 h4 => ?_⟩
  · cases hq
    exact ⟨Nat.le_refl _, hjk, c, hc.2, hf, hn⟩
  · rcases Nat.eq_or_lt_of_le h1 with e | e
    · exact .inl (by rw [e])
    · exact .inr (.inl ((h m c e h2 h3 h4).resolve_right no_letter))

variable (hct : ct.Ok)
include hct

theorem not_cons {a : Nat} {P : Prop} (h : ct.isCons a = true) (ha : ¬ (0x0e01 ≤ a ∧ a ≤ 0x0e2e ∧ a ≠ 0x0e24 ∧ a ≠ 0x0e26)) : P :=
  absurd (hct.cons a h) ha

/-- A character that is no consonant. -/
theorem cov_sign {j a : Nat} (h : At w t j a) (ha : ¬ (0x0e01 ≤ a ∧ a ≤ 0x0e2e ∧ a ≠ 0x0e24 ∧ a ≠ 0x0e26)) :
    Cov ct w v j (j + 1) := cov_one h fun hc => not_cons hct hc ha

theorem cov_silent {j : Nat} (h : Silent ct w t j) : Cov ct w v j (j + 2) := by
  obtain ⟨c, h1, -, h3⟩ := h
  exact cov_append (cov_one h1 fun _ => .inl (.inl h3.2)) (cov_sign hct h3 (by decide))

theorem cov_silent2 {j : Nat} {A : Nat → Prop} (h : Silent2 ct w t A j) (hA : ∀ d, A d → ct.isCons d = true ∨ IU d) :
    Cov ct w v j (j + 3) := by
  obtain ⟨c, d, h1, -, h3, h4, h5⟩ := h
  exact cov_append (cov_one h1 fun _ => .inl (.inr ⟨h5.2, d, h3.2, hA d h4⟩))
    (cov_append (cov_one h3 fun _ => .inl (.inl h5.2)) (cov_sign hct h5 (by decide)))

theorem cov_skip {j k : Nat} (h : Skip ct w t j k) : Cov ct w v j k := by
  rcases h with ⟨h, rfl⟩ | ⟨-, rfl⟩
  · exact cov_silent hct h
  · exact cov_nil

theorem cov_skipIU {j k : Nat} (h : SkipIU ct w t j k) : Cov ct w v j k := by
  rcases h with ⟨h, rfl⟩ | ⟨-, rfl⟩
  · exact cov_silent2 hct h fun d hd => .inr hd
  · exact cov_nil

theorem cov_skipAny {j k : Nat} (h : SkipAny ct w t j k) : Cov ct w v j k := by
  rcases h with ⟨h, rfl⟩ | ⟨-, h, rfl⟩ | ⟨-, -, rfl⟩
  · exact cov_silent hct h
  · exact cov_silent2 hct h fun d hd => hd
  · exact cov_nil

theorem cov_mark {j k : Nat} {m : Tone} (h : MarkAt ct w t j m k) : Cov ct w v j k := by
  rcases h with ⟨c, h1, h2, -, rfl⟩ | ⟨-, -, rfl⟩
  · have := hct.tone c h2
    exact cov_sign hct h1 (by omega)
  · exact cov_nil

theorem ra_open {j : Nat} {f : EndConsClass} {m : Tone} {r : Rime} (h : Open ct w t j v f m r) : RA ct w v j r := by
  obtain ⟨k, h1, rfl⟩ := h
  exact ra_cov (skip_le h1) (cov_skip hct h1)

theorem ra_openFin {j c : Nat} {f : EndConsClass} {m : Tone} {r : Rime} (h : Open ct w t (j + 1) v f m r)
    (hc : At w t j c) (hf : c ∈ finalLetters f) (hn : f ≠ .NONE) : RA ct w v j r := by
  obtain ⟨k, h1, rfl⟩ := h
  exact ra_fin hc hf hn (by have := skip_le h1; omega) (cov_skip hct h1)

theorem ra_shut {j : Nat} {excl : U16Str} {m : Tone} {r : Rime} (h : Shut ct w t j excl v m r) : RA ct w v j r := by
  obtain ⟨k, b, f, ⟨c, ⟨h1, -, h3, h4, -⟩, -, h2⟩, rfl⟩ := h
  exact ra_fin h1 h3 h4 (by have := skipAny_le h2; omega) (cov_skipAny hct h2)

theorem ra_shutX {j : Nat} {excl : U16Str} {m : Tone} {r : Rime} (h : ShutX ct w t j excl v m r) : RA ct w v j r := by
  obtain ⟨k, b, f, ⟨c, ⟨h1, -, h3, h4, -⟩, h2⟩, rfl⟩ := h
  rcases h2 with ⟨-, h2⟩ | ⟨-, ⟨-, rfl, -, h2⟩ | ⟨-, rfl, -⟩⟩
  · exact ra_fin h1 h3 h4 (by have := skipAny_le h2; omega) (cov_skipAny hct h2)
  · rcases h2 with ⟨h2, -, h5⟩ | ⟨d, h2, h5, -⟩
    · refine ⟨rfl, by show j ≤ j + 2; omega, some j, fun q hq => ?_, fun m a g1 g2 g3 g4 => ?_⟩
      · cases hq
        exact ⟨Nat.le_refl _, by show j ≤ j + 2; omega, c, h1.2, h3, h4⟩
      · change m < j + 2 at g2
        by_cases hm : m = j
        · exact .inl (by rw [hm])
        · have hm : m = j + 1 := by omega
          subst hm
          rw [h2.2] at g3
          cases g3
          exact .inr (.inr (.inl ⟨rfl, j, c, rfl, rfl, h1.2, h5⟩))
    · refine ra_fin h1 h3 h4 (by omega) ?_
      exact cov_sign hct h2 (by rcases h5 with rfl | rfl <;> decide)
  · exact ra_fin h1 h3 h4 (Nat.le_refl _) fun m c h5 h6 => by omega

/-! ## Rimes -/

omit hct in
theorem un_o {m : Nat} (hv : v ∈ [VW.UEE, VW.AU, VW.AUU, VW.UEA, VW.UEAA, VW.OE, VW.OEE]) : Silenced ct w m ∨ VowelLetter w v m ch!"อ" :=
  .inr (.inr (.inl ⟨rfl, hv⟩))

omit hct in
theorem un_w {m : Nat} (hv : v ∈ [VW.UA, VW.UAA]) : Silenced ct w m ∨ VowelLetter w v m ch!"ว" :=
  .inr (.inr (.inr (.inl ⟨rfl, hv⟩)))

omit hct in
theorem un_y {m : Nat} (hv : v ∈ [VW.IA, VW.IAA]) : Silenced ct w m ∨ VowelLetter w v m ch!"ย" :=
  .inr (.inr (.inr (.inr ⟨rfl, hv⟩)))

omit hct in
theorem un_ro {m : Nat} (h : BesideRo w m) : Silenced ct w m ∨ VowelLetter w VW.A m ch!"ร" :=
  .inr (.inl ⟨rfl, rfl, h⟩)

theorem ra_han {j : Nat} {r : Rime} (h : HanRime ct w t j r) : ∃ v, RA ct w v j r := by
  obtain ⟨h1, m, k, h2, h3⟩ := h
  have hk := mark_le h2
  have pre : ∀ {v}, RA ct w v k r → RA ct w v j r := fun hr =>
    ra_append (by omega) (cov_append (cov_sign hct h1 (by decide)) (cov_mark hct h2)) hr
  rcases h3 with ⟨k1, k2, h⟩ | ⟨k1, -, h⟩ | ⟨-, -, h⟩ | ⟨-, -, h⟩
  · exact ⟨_, pre (ra_append (by omega) (cov_append (cov_one k1 fun _ => un_w (by decide)) (cov_sign hct k2 (by decide)))
      (ra_open hct h))⟩
  · exact ⟨_, pre (ra_append (by omega) (cov_one k1 fun _ => un_w (by decide)) (ra_open hct h))⟩
  · exact ⟨_, pre (ra_shutX hct h)⟩
  · exact ⟨_, pre (ra_shut hct h)⟩

theorem ra_signFinal {k : Nat} {m : Tone} {r : Rime} (h : SignFinal ct w t k v m r) : RA ct w v k r := by
  rcases h.2 with ⟨rfl, k1, h⟩ | ⟨-, -, h⟩ | ⟨-, -, h⟩ | ⟨-, -, -, h⟩
  · exact ra_append (by omega) (cov_one k1 fun _ => un_o (by decide)) (ra_open hct h)
  · exact ra_shut hct h
  · exact ra_shut hct h
  · exact ra_shutX hct h

theorem ra_sign {j : Nat} {r : Rime} (h : SignRime ct w t j r) : ∃ v, RA ct w v j r := by
  obtain ⟨c, v, m, k, h0, h01, -, h1, h2⟩ := h
  have hk := mark_le h1
  have hs : ¬ (0x0e01 ≤ c ∧ c ≤ 0x0e2e ∧ c ≠ 0x0e24 ∧ c ≠ 0x0e26) := by
    rcases h01 with h | h
    · have := hct.up c h; omega
    · have := hct.bl c h; omega
  refine ⟨v, ra_append (j := k) (by omega) (cov_append (cov_sign hct h0 hs) (cov_mark hct h1)) ?_⟩
  rcases h2 with ⟨-, -, h⟩ | ⟨-, ⟨k1, rfl | h⟩ | ⟨-, k1, rfl⟩ | ⟨-, -, rfl | h⟩⟩
  · exact ra_signFinal hct h
  · exact ra_cov (by omega) (cov_silent hct k1)
  · exact ra_append (by omega) (cov_silent hct k1) (ra_signFinal hct h)
  · exact ra_cov (by omega) (cov_silent2 hct k1 fun d hd => .inr hd)
  · exact ra_cov (by omega) cov_nil
  · exact ra_signFinal hct h

theorem ra_shortO {j : Nat} {r : Rime} (h : ShortORime ct w t j r) : ∃ v, RA ct w v j r := by
  obtain ⟨h1, h2, k, h3, h4⟩ := h
  have := skip_le h3
  exact ⟨_, ra_append (by omega) (cov_append (cov_sign hct h1 (by decide))
    (cov_append (cov_one h2 fun _ => un_o (by decide)) (cov_skip hct h3))) (ra_shut hct h4)⟩

theorem ra_ro {o : Onset} {k : Nat} {m : Tone} {r : Rime} (h : RoRime ct w t o k m r) : ∃ v, RA ct w v k r := by
  obtain ⟨h1, h2⟩ := h
  rcases h2 with ⟨-, h2⟩ | ⟨k', h2, h3, h4⟩
  · exact ⟨_, ra_openFin hct h2 h1 (by decide) (by decide)⟩
  · have hs : k + 1 ≤ k' ∧ Cov ct w VW.A (k + 1) k' ∧ BesideRo w k ∧ BesideRo w k' := by
      have same : k' = k + 1 → k + 1 ≤ k' ∧ Cov ct w VW.A (k + 1) k' ∧ BesideRo w k ∧ BesideRo w k' := by
        rintro rfl
        exact ⟨Nat.le_refl _, cov_nil, .inl h3.2, .inr (.inr (.inl ⟨by omega, h1.2⟩))⟩
      split at h2
      · exact same h2
      · rcases h2 with ⟨h2, rfl⟩ | ⟨-, rfl⟩
        · obtain ⟨c, g1, g2, g3⟩ := id h2
          exact ⟨by omega, cov_silent hct h2, .inr (.inl ⟨g3.2, h3.2⟩), .inr (.inr (.inr ⟨by omega, g3.2, h1.2⟩))⟩
        · exact same rfl
    obtain ⟨k1, k2, k3, k4⟩ := hs
    refine ⟨VW.A, ra_append (j := k') (by omega) (cov_append (cov_one h1 fun _ => un_ro k3) k2) ?_⟩
    rcases h4 with h4 | ⟨-, h4⟩
    · exact ra_openFin hct h4 h3 (by decide) (by decide)
    · exact ra_append (by omega) (cov_one h3 fun _ => un_ro k4) (ra_shutX hct h4)

theorem ra_plain {o : Onset} {l : Bool} {j : Nat} {r : Rime} (h : PlainRime ct w t o l j r) : ∃ v, RA ct w v j r := by
  obtain ⟨m, k, h1, h2⟩ := h
  have hk := mark_le h1
  have pre : (∃ v, RA ct w v k r) → ∃ v, RA ct w v j r := fun ⟨v, hr⟩ => ⟨v, ra_append hk (cov_mark hct h1) hr⟩
  refine pre ?_
  rcases h2 with ⟨k1, k2⟩ | ⟨k1, k2 | ⟨k', k2, k3⟩⟩ | ⟨k1, k2⟩ | ⟨k1, k2⟩ | ⟨k1, k2 | ⟨k', k2, k3⟩⟩ | h2 |
    ⟨-, -, -, h2⟩ | ⟨v, c, -, -, -, -, rfl | h2⟩
  · exact ⟨_, ra_append (by omega) (cov_sign hct k1 (by decide)) (ra_open hct k2)⟩
  · exact ⟨_, ra_append (by omega) (cov_sign hct k1 (by decide)) (ra_open hct k2)⟩
  · have := skip_le k2
    exact ⟨_, ra_append (by omega) (cov_append (cov_sign hct k1 (by decide)) (cov_skip hct k2)) (ra_shutX hct k3)⟩
  · exact ⟨_, ra_append (by omega) (cov_sign hct k1 (by decide)) (ra_open hct k2)⟩
  · exact ⟨_, ra_append (by omega) (cov_one k1 fun _ => un_w (by decide)) (ra_shut hct k2)⟩
  · exact ⟨_, ra_append (by omega) (cov_one k1 fun _ => un_o (by decide)) (ra_open hct k2)⟩
  · have := skip_le k2
    exact ⟨_, ra_append (by omega) (cov_append (cov_one k1 fun _ => un_o (by decide)) (cov_skip hct k2)) (ra_shut hct k3)⟩
  · exact ra_ro hct h2
  · exact ⟨_, ra_shut hct h2⟩
  · exact ⟨_, ra_cov (Nat.le_refl _) cov_nil⟩
  · exact ⟨_, ra_shutX hct h2⟩

theorem ra_cons' {o : Onset} {l : Bool} {r : Rime} (h : ConsRime ct w t o l r) : ∃ v, RA ct w v o.stop r := by
  rcases h with h | h | h | h
  · exact ra_han hct h
  · exact ra_sign hct h
  · exact ra_shortO hct h
  · exact ra_plain hct h

theorem ra_mid {a b : Nat} {v v' : Vowel} {j : Nat} {f : Bool} {r : Rime} (h : MidRime ct w t a b v v' j f r)
    (ha : ¬ (0x0e01 ≤ a ∧ a ≤ 0x0e2e ∧ a ≠ 0x0e24 ∧ a ≠ 0x0e26)) (hv : ∀ m, Silenced ct w m ∨ VowelLetter w v m b) (hv' : ∀ m, Silenced ct w m ∨ VowelLetter w v' m b) :
    ∃ v, RA ct w v j r := by
  obtain ⟨h0, m, k, h1, h4, h⟩ := h
  have hk := mark_le h1
  have pre : ∀ {v}, RA ct w v k r → ∃ v, RA ct w v j r := fun hr =>
    ⟨_, ra_append (by omega) (cov_append (cov_sign hct h0 ha) (cov_mark hct h1)) hr⟩
  rcases h with ⟨h5, h2⟩ | ⟨-, h2 | ⟨k', h2, h3⟩⟩
  · exact pre (ra_append (by omega) (cov_append (cov_one h4 fun _ => hv _) (cov_sign hct h5 (by decide))) (ra_open hct h2))
  · exact pre (ra_append (by omega) (cov_one h4 fun _ => hv' _) (ra_open hct h2))
  · have := skip_le h2
    have h6 := cov_append (cov_one h4 fun _ => hv' _) (cov_skip hct h2)
    cases f
    · exact pre (ra_append (by omega) h6 (ra_shut hct h3))
    · exact pre (ra_append (by omega) h6 (ra_shutX hct h3))

theorem ra_e {o : Onset} {r : Rime} (h : ERime ct w t o r) : ∃ v, RA ct w v o.stop r := by
  rcases h with ⟨-, -, rfl⟩ | ⟨h0, m, k, k', h1, h2, h3⟩ | h | h | ⟨h0, h⟩ | ⟨-, m, k, h1, h2⟩
  · exact ⟨_, ra_cov (Nat.le_refl _) cov_nil⟩
  · have := mark_le h1
    have := skip_le h2
    exact ⟨_, ra_append (by omega) (cov_append (cov_sign hct h0 (by decide)) (cov_append (cov_mark hct h1) (cov_skip hct h2)))
      (ra_shut hct h3)⟩
  · exact ra_mid hct h (by decide) (fun m => un_y (by decide)) fun m => un_y (by decide)
  · exact ra_mid hct h (by decide) (fun m => un_o (by decide)) fun m => un_o (by decide)
  · exact ⟨_, ra_append (by omega) (cov_sign hct h0 (by decide)) (ra_shut hct h)⟩
  · have hk := mark_le h1
    have pre : ∀ {v}, RA ct w v k r → ∃ v, RA ct w v o.stop r := fun hr => ⟨_, ra_append hk (cov_mark hct h1) hr⟩
    rcases h2 with ⟨-, rfl⟩ | ⟨k1, ⟨-, h⟩ | ⟨k2, h⟩ | ⟨-, h⟩⟩ | ⟨k1, -, h⟩ | ⟨k1, ⟨k2, h⟩ | ⟨-, h⟩⟩ | ⟨k1, -, h⟩ |
      ⟨c, -, -, -, -, -, h | ⟨k', h2, h⟩⟩
    · exact pre (ra_cov (Nat.le_refl _) cov_nil)
    · exact pre (ra_open hct h)
    · exact pre (ra_append (by omega) (cov_append (cov_one k1 fun _ => un_o (by decide)) (cov_sign hct k2 (by decide))) (ra_open hct h))
    · exact pre (ra_append (by omega) (cov_one k1 fun _ => un_o (by decide)) (ra_open hct h))
    · exact pre (ra_append (by omega) (cov_sign hct k1 (by decide)) (ra_open hct h))
    · exact pre (ra_append (by omega) (cov_append (cov_sign hct k1 (by decide)) (cov_sign hct k2 (by decide))) (ra_open hct h))
    · exact pre (ra_append (by omega) (cov_sign hct k1 (by decide)) (ra_open hct h))
    · exact pre (ra_openFin hct h k1 (by decide) (by decide))
    · exact pre (ra_open hct h)
    · exact pre (ra_append (skip_le h2) (cov_skip hct h2) (ra_shutX hct h))

theorem ra_lead {a j : Nat} {r : Rime} (h : LeadRime ct w t a j r) : ∃ v, RA ct w v j r := by
  obtain ⟨m, k, h1, h2⟩ := h
  have hk := mark_le h1
  have pre : ∀ {v}, RA ct w v k r → ∃ v, RA ct w v j r := fun hr => ⟨_, ra_append hk (cov_mark hct h1) hr⟩
  have ai : ∀ {b}, AiRime ct w t b k m r → ∃ v, RA ct w v j r := by
    rintro b (h | ⟨-, h, -, rfl⟩)
    · exact pre (ra_open hct h)
    · exact pre (ra_fin h (by decide) (by decide) (by omega) cov_nil)
  rcases h2 with ⟨-, h⟩ | ⟨-, h⟩ | ⟨-, h⟩ | ⟨-, h⟩
  · rcases h with ⟨k1, h⟩ | ⟨k1, h⟩ | ⟨-, -, h | ⟨k', h2, h⟩⟩
    · exact pre (ra_append (by omega) (cov_sign hct k1 (by decide)) (ra_open hct h))
    · exact pre (ra_append (by omega) (cov_sign hct k1 (by decide)) (ra_shut hct h))
    · exact pre (ra_open hct h)
    · exact pre (ra_append (skip_le h2) (cov_skip hct h2) (ra_shut hct h))
  · rcases h with ⟨k1, ⟨h, rfl⟩ | ⟨-, k', h, rfl⟩⟩ | ⟨-, ⟨h, rfl | h'⟩ | ⟨-, h, rfl⟩ | ⟨-, -, rfl | h⟩⟩
    · exact pre (ra_cov (by omega) (cov_append (cov_sign hct k1 (by decide)) (cov_silent hct h)))
    · have := skipIU_le h
      exact pre (ra_cov (by omega) (cov_append (cov_sign hct k1 (by decide)) (cov_skipIU hct h)))
    · exact pre (ra_cov (by omega) (cov_silent hct h))
    · exact pre (ra_append (by omega) (cov_silent hct h) (ra_shutX hct h'))
    · exact pre (ra_cov (by omega) (cov_silent2 hct h fun d hd => .inr hd))
    · exact pre (ra_cov (Nat.le_refl _) cov_nil)
    · exact pre (ra_shutX hct h)
  · exact ai h
  · exact ai h

theorem ra_ru {i : Nat} {r : Rime} (h : RuRime ct w t i r) : ∃ v, RA ct w v (i + 1) r := by
  rcases h with ⟨-, rfl⟩ | ⟨h, rfl⟩ | ⟨d, -, -, ⟨-, rfl⟩ | ⟨-, h⟩⟩
  · exact ⟨_, ra_cov (Nat.le_refl _) cov_nil⟩
  · refine ⟨_, ra_cov (by omega) ?_⟩
    rcases h with h | h
    · exact cov_sign hct h (by decide)
    · exact cov_sign hct h (by decide)
  · exact ⟨_, ra_cov (Nat.le_refl _) cov_nil⟩
  · exact ⟨_, ra_shutX hct h⟩

/-! ## Onsets -/

omit hct in
/-- The consonants of an onset at `i` in a syllable with the vowel `v`. -/
def OA (ct : CType) (w : U16Str) (i : Nat) (o : Onset) : Prop :=
  (o.pre = none ∧ ∃ n c k, i ≤ n ∧ w[n]? = some c ∧ Heard [] c o.sound ∧ SecondAt w (n + 1) o.second k ∧ k ≤ o.stop ∧
    ∀ m c, i ≤ m → m < o.stop → w[m]? = some c → ct.isCons c = true → (n ≤ m ∧ m < k) ∨ ∀ v f, Unheard ct w n k v f m c) ∨
  (∃ s cls u c c', o.pre = some (openSyl s cls u) ∧ w[i]? = some c ∧ Heard [] c s ∧ w[i + 1]? = some c' ∧ Heard [] c' o.sound ∧
    o.second = SC.NONE ∧ i + 2 ≤ o.stop ∧ Cov ct w (-1) (i + 2) o.stop)

omit hct in
theorem oa_one {i c : Nat} {snd : InitConsSound} {cls : InitConsClass} {inh : Option Vowel} (h : w[i]? = some c)
    (hc : Letter ct c snd cls) : OA ct w i ⟨i + 1, none, snd, cls, SC.NONE, inh⟩ :=
  .inl ⟨rfl, i, c, i + 1, Nat.le_refl _, h, .inl hc.2.1, .inl ⟨rfl, rfl⟩, Nat.le_refl _, fun m _ h1 h2 _ _ => .inl ⟨h1, h2⟩⟩

omit hct in
theorem oa_pre {i c c' k : Nat} {snd snd' : InitConsSound} {cls cls' : InitConsClass} {u : Vowel} {inh : Option Vowel}
    (h : w[i]? = some c) (hc : Letter ct c snd cls) (h' : w[i + 1]? = some c') (hc' : Heard [] c' snd') (hk : i + 2 ≤ k)
    (hv : Cov ct w (-1) (i + 2) k) : OA ct w i ⟨k, some (openSyl snd cls u), snd', cls', SC.NONE, inh⟩ :=
  .inr ⟨snd, cls, u, c, c', rfl, h, .inl hc.2.1, h', hc', rfl, hk, hv⟩

theorem oa_onset {i : Nat} {l : Bool} {o : Onset} (h : OnsetAt ct w t i l o) : OA ct w i o := by
  obtain ⟨c, snd, cls, h1, hc, rfl | ⟨d, snd2, cls2, h3, hd, -, h4⟩ | ⟨⟨h3, -⟩, h4⟩⟩ := h
  · exact oa_one h1 hc
  · rcases h4 with ⟨cs, s, h5, -, -, rfl⟩ | ⟨h5, rfl, -, rfl⟩ | ⟨rfl, rfl, rfl⟩ | rfl
    · have : ∀ x ∈ trueClusters, ∃ cs, (x.2.2, cs) ∈ secondLetters ∧ x.2.1 ∈ cs := by
        intro x hx
        simp only [trueClusters, List.mem_cons, List.not_mem_nil, or_false] at hx
        rcases hx with rfl | rfl | rfl
        · exact ⟨u!"รฤ", by decide, by decide⟩
        · exact ⟨u!"ล", by decide, by decide⟩
        · exact ⟨u!"ว", by decide, by decide⟩
      obtain ⟨ds, k1, k2⟩ := this _ h5
      exact .inl ⟨rfl, i, c, i + 2, Nat.le_refl _, h1, .inl hc.2.1, .inr ⟨rfl, d, ds, h3.2, k1, k2⟩, Nat.le_refl _,
        fun m _ h1 h2 _ _ => .inl ⟨h1, h2⟩⟩
    · refine .inl ⟨rfl, i, c, i + 1, Nat.le_refl _, h1, .inl hc.2.1, .inl ⟨rfl, rfl⟩, by show i + 1 ≤ i + 2; omega,
        fun m e g1 g2 g3 g4 => ?_⟩
      change m < i + 2 at g2
      by_cases hm : m = i
      · exact .inl (by omega)
      · have hm : m = i + 1 := by omega
        subst hm
        rw [h3.2] at g3
        cases g3
        exact .inr fun v f => .inr (.inr (.inl ⟨rfl, rfl, rfl, c, h1, h5⟩))
    · refine .inl ⟨rfl, i + 1, d, i + 2, by omega, h3.2, .inl hd.2.1, .inl ⟨rfl, rfl⟩, Nat.le_refl _,
        fun m e g1 g2 g3 g4 => ?_⟩
      change m < i + 2 at g2
      by_cases hm : m = i
      · subst hm
        rw [h1] at g3
        cases g3
        exact .inr fun v f => .inr (.inl ⟨rfl, rfl, d, h3.2, hd.2.2⟩)
      · exact .inl (by omega)
    · exact oa_pre h1 hc h3.2 (.inl hd.2.1) (Nat.le_refl _) cov_nil
  · have hr : Heard [] ch!"ฤ" .RA := .inr (.inl ⟨rfl, rfl⟩)
    have hs : (SC.RA, u!"รฤ") ∈ secondLetters := by decide
    have joined : ∀ v, OA ct w i ⟨i + 2, none, snd, cls, SC.RA, some v⟩ := fun v =>
      .inl ⟨rfl, i, c, i + 2, Nat.le_refl _, h1, .inl hc.2.1, .inr ⟨rfl, _, u!"รฤ", h3.2, hs, by decide⟩, Nat.le_refl _,
        fun m _ h1 h2 _ _ => .inl ⟨h1, h2⟩⟩
    have apart : ∀ cls' v, OA ct w i ⟨i + 2, some (openSyl snd cls VW.A), .RA, cls', SC.NONE, some v⟩ := fun cls' v =>
      oa_pre h1 hc h3.2 hr (Nat.le_refl _) cov_nil
    rcases h4 with ⟨-, rfl⟩ | ⟨-, rfl | rfl⟩ | ⟨-, rfl⟩ | ⟨-, rfl⟩ | ⟨-, -, rfl⟩ | ⟨-, v, -, ⟨-, rfl⟩ | rfl⟩
    · exact joined _
    · refine .inl ⟨rfl, i, c, i + 1, Nat.le_refl _, h1, .inl hc.2.1, .inl ⟨rfl, rfl⟩, by show i + 1 ≤ i + 2; omega,
        fun m e g1 g2 g3 g4 => ?_⟩
      change m < i + 2 at g2
      by_cases hm : m = i
      · exact .inl (by omega)
      · have hm : m = i + 1 := by omega
        subst hm
        rw [h3.2] at g3
        cases g3
        exact not_cons hct g4 (by decide)
    · exact apart _ _
    · exact joined _
    · exact apart _ _
    · exact joined _
    · exact joined _
    · exact apart _ _

theorem oa_whole {i : Nat} {o : Onset} {r : Rime} (h : WholeAt ct w t i o r) : OA ct w i o ∧ o.stop = r.stop := by
  obtain ⟨c, snd, cls, h1, hc, h2⟩ := h
  have hr : Heard [] ch!"ร" .RA := .inl (by decide)
  have hr' : Heard [] ch!"ฤ" .RA := .inr (.inl ⟨rfl, rfl⟩)
  rcases h2 with ⟨-, rfl, rfl⟩ | ⟨-, -, -, -, rfl, rfl⟩ |
    ⟨h3, -, -, ⟨-, -, rfl, rfl⟩ | ⟨h4, -, rfl, rfl⟩ | ⟨h4, -, rfl, rfl⟩⟩ | ⟨⟨h3, -⟩, -, rfl, rfl⟩
  · exact ⟨oa_one h1 hc, rfl⟩
  · exact ⟨oa_one h1 hc, rfl⟩
  · exact ⟨oa_pre h1 hc h3.2 hr (Nat.le_refl _) cov_nil, rfl⟩
  · exact ⟨oa_pre h1 hc h3.2 hr (by omega) (cov_sign hct h4 (by decide)), rfl⟩
  · exact ⟨oa_pre h1 hc h3.2 hr (by omega) (cov_sign hct h4 (by decide)), rfl⟩
  · exact ⟨oa_pre h1 hc h3.2 hr' (Nat.le_refl _) cov_nil, rfl⟩

/-! ## Syllables -/

omit hct in
theorem unheard_of {i k m c : Nat} {f : Option Nat} (hk : k ≤ m) (h : f = some m ∨ Silenced ct w m ∨
      (c = ch!"ร" ∧ ∃ j d, f = some j ∧ m = j + 1 ∧ w[j]? = some d ∧ d ∈ u!"กคชตท") ∨
      ((∀ j, f = some j → m < j) ∧ VowelLetter w v m c)) : f = some m ∨ Unheard ct w i k v f m c := by
  rcases h with h | h | h | h
  · exact .inl h
  · exact .inr (.inl ⟨hk, h⟩)
  · exact .inr (.inr (.inr (.inr (.inl h))))
  · exact .inr (.inr (.inr (.inr (.inr ⟨hk, h⟩))))

/-- The consonants of a spelled syllable. -/
theorem spelled_accounted {p : Nat} {l : Bool} {o : Onset} {r : Rime} (h : Spelled ct w t p l o r) :
    (o.pre = none ∧ Accounted ct look w p r.stop (spoken o r)) ∨
    (∃ s, o.pre = some s ∧ Accounted ct look w p (firstCons w p + 1) s ∧ Accounted ct look w (firstCons w p + 1) r.stop (spoken o r)) := by
  have key : ∀ i, p ≤ i → i = firstCons w p → (∀ m c, p ≤ m → m < i → w[m]? = some c → ct.isCons c = false) →
      OA ct w i o → (∃ v, RA ct w v o.stop r) →
      (o.pre = none ∧ Accounted ct look w p r.stop (spoken o r)) ∨
      (∃ s, o.pre = some s ∧ Accounted ct look w p (firstCons w p + 1) s ∧
        Accounted ct look w (firstCons w p + 1) r.stop (spoken o r)) := by
    rintro i hi hb hlead (⟨h1, n, c, k, hn, h2, h3, h4, h5, h6⟩ | ⟨s, cls, u, c, c', h1, h2, h3, h4, h5, h6, h7, h8⟩)
      ⟨v, rfl, hr, f, hf, hm⟩
    · refine .inl ⟨h1, .inr (.inr ⟨rfl, n, k, f, by omega, h5.trans hr, ⟨c, h2, h3⟩, h4, fun j hj => ?_, fun m d g1 g2 g3 g4 => ?_⟩)⟩
      · obtain ⟨k1, k2, k3⟩ := hf j hj
        exact ⟨h5.trans k1, k2, k3⟩
      · change m < r.stop at g2
        rcases Nat.lt_or_ge m i with g5 | g5
        · rw [hlead m d g1 g5 g3] at g4
          cases g4
        · rcases Nat.lt_or_ge m o.stop with g6 | g6
          · exact (h6 m d g5 g6 g3 g4).imp id fun h => .inr (h r.vowel f)
          · exact .inr (unheard_of (h5.trans g6) (hm m d g6 g2 g3 g4))
    · refine .inr ⟨_, h1, .inr (.inr ⟨rfl, i, i + 1, none, hi, by omega, ⟨c, h2, h3⟩, .inl ⟨rfl, rfl⟩, fun j hj => (by cases hj),
        fun m d g1 g2 g3 g4 => ?_⟩), .inr (.inr ⟨rfl, i + 1, i + 2, f, by omega, h7.trans hr, ⟨c', h4, h5⟩, .inl ⟨h6, rfl⟩,
        fun j hj => ?_, fun m d g1 g2 g3 g4 => ?_⟩)⟩
      · rcases Nat.lt_or_ge m i with g5 | g5
        · rw [hlead m d g1 g5 g3] at g4
          cases g4
        · exact .inl ⟨g5, by omega⟩
      · obtain ⟨k1, k2, k3⟩ := hf j hj
        exact ⟨h7.trans k1, k2, k3⟩
      · change m < r.stop at g2
        rcases Nat.lt_or_ge m (i + 2) with g5 | g5
        · exact .inl (by omega)
        · rcases Nat.lt_or_ge m o.stop with g6 | g6
          · exact .inr (.inr (.inl ⟨g5, (h8 m d g5 g6 g3 g4).resolve_right no_letter⟩))
          · exact .inr (unheard_of (h7.trans g6) (hm m d g6 g2 g3 g4))
  have flat : ∀ {c : Nat}, w[p]? = some c → ¬ (0x0e40 ≤ c ∧ c ≤ 0x0e44) → p = firstCons w p := by
    intro c hc hn
    rw [firstCons, if_neg]
    rw [hc]
    simpa using hn
  have led : ∀ {c : Nat}, w[p]? = some c → 0x0e40 ≤ c ∧ c ≤ 0x0e44 → p + 1 = firstCons w p := by
    intro c hc hn
    rw [firstCons, if_pos]
    rw [hc]
    simpa using hn
  have skip : ∀ {c : Nat}, w[p]? = some c → 0x0e40 ≤ c ∧ c ≤ 0x0e44 →
      ∀ m d, p ≤ m → m < p + 1 → w[m]? = some d → ct.isCons d = false := by
    intro c hc hn m d g1 g2 g3
    have : m = p := by omega
    subst this
    rw [hc] at g3
    cases g3
    by_contra hd
    have := hct.cons c (by simpa using hd)
    omega
  have zero : ∀ m d, p ≤ m → m < p → w[m]? = some d → ct.isCons d = false := fun m d g1 g2 => by omega
  obtain ⟨c, hc, h | h | h | h⟩ := h
  · have hl : ¬ (0x0e40 ≤ c ∧ c ≤ 0x0e44) := by
      have h1 := hct.cons c h.1
      omega
    obtain ⟨h1, ⟨h2, -, h3⟩ | ⟨h2, -⟩⟩ := h
    · exact key p (Nat.le_refl _) (flat hc hl) zero (oa_onset hct h2) (ra_cons' hct h3)
    · obtain ⟨k1, k2⟩ := oa_whole hct h2
      refine key p (Nat.le_refl _) (flat hc hl) zero k1 ⟨r.vowel, rfl, by rw [k2], none, fun q hq => (by cases hq), fun m c g1 g2 => ?_⟩
      omega
  · obtain ⟨rfl, -, h2, h3⟩ := h
    exact key (p + 1) (by omega) (led hc (by decide)) (skip hc (by decide)) (oa_onset hct h2) (ra_e hct h3)
  · obtain ⟨h1, -, h2, h3⟩ := h
    exact key (p + 1) (by omega) (led hc (hct.ld c h1)) (skip hc (hct.ld c h1)) (oa_onset hct h2) (ra_lead hct h3)
  · obtain ⟨h1, rfl, h3⟩ := h
    have hl : ¬ (0x0e40 ≤ c ∧ c ≤ 0x0e44) := by omega
    refine key p (Nat.le_refl _) (flat hc hl) zero ?_ (ra_ru hct h3)
    refine .inl ⟨rfl, p, c, p + 1, Nat.le_refl _, hc, ?_, .inl ⟨rfl, rfl⟩, Nat.le_refl _, fun m _ h1 h2 _ _ => .inl ⟨h1, h2⟩⟩
    rcases h1 with rfl | rfl
    · exact .inr (.inl ⟨rfl, rfl⟩)
    · exact .inr (.inr (.inl ⟨rfl, rfl⟩))

end

/-! ## Edges -/

section
variable {ct : CType} {w : U16Str} {look : List Nat → Option Str} {brk : List Int}

/-- The consonants between the places of an edge are accounted for. -/
def EdgeAccounted (ct : CType) (look : List Nat → Option Str) (w : U16Str) (e : Entry Syl) : Prop :=
  ∃ a b, PlaceOf w e.key a ∧ PlaceOf w e.target b ∧ Accounted ct look w a b e.val

theorem dot_not_cons (hct : ct.Ok) : ct.isCons ch!"." = false := by
  by_contra h
  have := hct.cons ch!"." (by simpa using h)
  omega

theorem Accounted.dot (hct : ct.Ok) {a b : Nat} {x : Syl} (h : Accounted ct look w a b x) (hb : w[b]? = some ch!".") :
    Accounted ct look w a (b + 1) x := by
  have hdot : ∀ {m c}, m < b + 1 → w[m]? = some c → ct.isCons c = true → m < b := by
    intro m c h1 h2 h3
    by_contra h4
    have : m = b := by omega
    subst this
    rw [hb] at h2
    cases h2
    rw [dot_not_cons hct] at h3
    cases h3
  rcases h with h | ⟨h0, h⟩ | ⟨h0, i, k, f, h1, h2, h3, h4, h5, h6⟩
  · exact .inl fun m c g1 g2 g3 g4 => h m c g1 (hdot g2 g3 g4) g3 g4
  · refine .inr (.inl ⟨h0, fun m c g1 g2 g3 => ?_⟩)
    by_contra g4
    have g5 := h m c g1 (hdot g2 g3 (by simpa using g4)) g3
    exact g4 g5
  · refine .inr (.inr ⟨h0, i, k, f, h1, h2.trans (Nat.le_succ b), h3, h4, fun j hj => ?_, fun m c g1 g2 g3 g4 =>
      h6 m c g1 (hdot g2 g3 g4) g3 g4⟩)
    obtain ⟨k1, k2, k3⟩ := h5 j hj
    exact ⟨k1, k2.trans (Nat.le_succ b), k3⟩

theorem stretch_accounted (hct : ct.Ok) {p : Nat} {e : Entry Syl} (hp : w[p]? = some ch!".") (h : EdgeAccounted ct look w e) :
    EdgeAccounted ct look w (stretch p e) := by
  unfold stretch
  split
  · rename_i ht
    obtain ⟨a, b, h1, h2, h3⟩ := h
    rw [ht] at h2
    have : b = p := place_unique h2 (.inl rfl)
    subst this
    exact ⟨a, b + 1, h1, .inl (by push_cast; rfl), Accounted.dot hct h3 hp⟩
  · exact h

theorem words_accounted {p q : Nat} {str : SylString} {data : Str} (hl : look (piece w p q) = some data)
    (h : ∀ e ∈ wordEdges 0 0 str, ∃ a b, PlaceOf (piece w p q) e.key a ∧ PlaceOf (piece w p q) e.target b ∧
      b ≤ (piece w p q).length) : ∀ e ∈ wordEdges p p str, EdgeAccounted ct look w e := by
  intro e he
  have h0 : movedEnd p 0 = p := by simp [movedEnd]
  have he : e ∈ wordEdges p (movedEnd p 0) str := by rw [h0]; exact he
  obtain ⟨e', h1, h2, h3, m, h4⟩ := wordEdges_moved str 0 e he
  obtain ⟨a, b, k1, k2, k3⟩ := h e' h1
  refine ⟨p + a, p + b, by rw [h2]; exact place_shift k1, by rw [h3]; exact place_shift k2, .inl fun n c g1 g2 _ _ => ?_⟩
  have : (piece w p q).length ≤ q - p := by unfold piece; exact List.length_take_le _ _
  exact ⟨p, q, by omega, by omega, by rw [hl]; exact Option.some_ne_none _⟩

theorem piece_at {p q m c : Nat} (h : w[m]? = some c) (h1 : p ≤ m) (h2 : m < q) : (piece w p q)[m - p]? = some c := by
  unfold piece
  rw [List.getElem?_take, if_pos (by omega), List.getElem?_drop, show p + (m - p) = m by omega]
  exact h

theorem names_accounted (hct : ct.Ok) {p q t : Nat} {new : List (Entry Syl)} (ha : IsAbbr ct w p t q) (h : AbbrNames w p q new) :
    ∀ e ∈ new, EdgeAccounted ct look w e := by
  intro e he
  rcases h with ⟨h1, rfl⟩ | ⟨-, cs, h1, h2, h3⟩
  · cases List.mem_singleton.mp he
    have hq : q = p + 1 := by
      rcases ha.shape with ⟨n, -, h2, h3, -⟩ | ⟨h2, -⟩
      · rcases Nat.eq_zero_or_pos n with rfl | hn
        · exact h2
        · obtain ⟨c, k1, k2⟩ := h3 p (Nat.le_refl _) (by omega)
          rw [h1] at k1
          cases k1
          rw [dot_not_cons hct] at k2
          cases k2
      · exact h2
    subst hq
    refine ⟨p, p + 1, .inl rfl, .inl rfl, .inr (.inl ⟨List.cons_ne_nil _ _, fun m c g1 g2 g3 => ?_⟩)⟩
    have : m = p := by omega
    subst this
    rw [h1] at g3
    cases g3
    exact dot_not_cons hct
  · obtain ⟨i, hi⟩ := List.mem_iff_getElem?.mp he
    have hi' := (List.getElem?_eq_some_iff.mp hi).1
    have hc : cs[i]? = some (cs[i]'(by omega)) := List.getElem?_eq_getElem _
    obtain ⟨k1, k2, snd, cls, k3, -, k5⟩ := h3 i _ e hc hi
    have hw : (piece w p q)[i]? = some (cs[i]'(by omega)) := by
      rcases h1 with h1 | ⟨h1, -⟩
      · rw [h1, List.getElem?_append_left (by omega)]
        exact hc
      · rw [h1]
        exact hc
    obtain ⟨k6, k7⟩ := piece_get hw
    refine ⟨p + i, if i + 1 = cs.length then q else p + i + 1, .inl k1, .inl (by rw [k2]; split <;> rfl), ?_⟩
    rw [k5]
    refine .inr (.inr ⟨rfl, p + i, p + i + 1, none, Nat.le_refl _, by split <;> omega, ⟨_, k6, .inl k3⟩, .inl ⟨rfl, rfl⟩,
      fun j hj => (by cases hj), fun m c g1 g2 g3 g4 => .inl ⟨g1, ?_⟩⟩)
    split at g2
    · rename_i hlast
      by_contra g5
      have g6 := piece_at (p := p) g3 (by omega) g2
      rcases h1 with h1 | ⟨h1, -⟩
      · rw [h1, List.getElem?_append_right (by omega)] at g6
        rcases Nat.eq_zero_or_pos (m - p - cs.length) with g7 | g7
        · rw [g7] at g6
          cases g6
          rw [dot_not_cons hct] at g4
          cases g4
        · rw [List.getElem?_eq_none (by simp only [List.length_cons, List.length_nil]; omega)] at g6
          cases g6
      · rw [h1, List.getElem?_eq_none (by omega)] at g6
        cases g6
    · exact g2

theorem step_accounted (hct : ct.Ok) (hd : WordsPlaced look w) {c c' : Config} (h : Rule ct w look brk c c')
    (hc : ∀ e ∈ c.edges, EdgeAccounted ct look w e) : ∀ e ∈ c'.edges, EdgeAccounted ct look w e := by
  intro e he
  cases h with
  | @other p l es q h =>
    rcases List.mem_append.mp he with he | he
    · exact hc e he
    · cases List.mem_singleton.mp he
      obtain ⟨h1, h2, h3, -⟩ := h
      have hl : (piece w p q).length = q - p := by simp [piece]; omega
      refine ⟨p, q, .inl rfl, .inl rfl, .inr (.inl ⟨fun e => ?_, fun m c g1 g2 g3 => ?_⟩)⟩
      · change piece w p q = [] at e
        rw [e] at hl
        simp at hl
        omega
      · by_contra g4
        exact h3 m g1 g2 ⟨c, g3, .inl (by simpa using g4)⟩
  | word _ h2 h3 h4 =>
    rcases List.mem_append.mp he with he | he
    · exact hc e he
    · exact words_accounted h2.2.2.1 (hd _ _ _ _ _ h2.2.2.1 h3 h4) e he
  | abbr h1 _ h3 h4 =>
    rcases List.mem_append.mp he with he | he
    · exact hc e he
    · exact names_accounted hct h3 h4 e he
  | @syl p l es t o r h1 h2 h3 h4 =>
    rcases List.mem_append.mp he with he | he
    · exact hc e he
    · obtain ⟨k1, k2, -⟩ := spelled_emit hct h1 h4
      have hp : p < w.length := by have := h1.1; have := h1.2.1; omega
      rcases spelled_accounted (look := look) hct h4 with ⟨k3, k4⟩ | ⟨s, k3, k4, k5⟩
      · unfold spelledEdges at he
        rw [k3] at he
        cases List.mem_singleton.mp he
        exact ⟨p, r.stop, .inl rfl, .inl rfl, k4⟩
      · unfold spelledEdges at he
        rw [k3] at he
        have hn : PlaceOf w (spanPos p r.stop) (firstCons w p + 1) := .inr ⟨p, r.stop, rfl, k1, k2, hp, rfl⟩
        simp only [List.mem_cons, List.not_mem_nil, or_false] at he
        rcases he with rfl | rfl
        · exact ⟨p, _, .inl rfl, hn, k4⟩
        · exact ⟨_, r.stop, hn, .inl rfl, k5⟩
  | dot _ _ _ hp =>
    obtain ⟨e', h1, rfl⟩ := List.mem_map.mp he
    exact stretch_accounted hct hp (hc e' h1)

theorem reading_accounted (hct : ct.Ok) (hd : WordsPlaced look w) {es : List (Entry Syl)} (h : RuleReading ct w look brk es) :
    ∀ e ∈ es, EdgeAccounted ct look w e := by
  obtain ⟨c, h1, -, rfl⟩ := h
  have key : ∀ {c : Config}, Relation.ReflTransGen (Rule ct w look brk) ⟨0, false, []⟩ c →
      ∀ e ∈ c.edges, EdgeAccounted ct look w e := by
    intro c h
    induction h with
    | refl => intro e he; cases he
    | tail _ h2 ih => exact step_accounted hct hd h2 ih
  exact key h1

theorem ceq_accounted {a b : Nat} {x y : Syl} (h : ceq x y = true) (hx : Accounted ct look w a b x) : Accounted ct look w a b y := by
  obtain ⟨h1, h2⟩ := (Syl.eq_iff x y).mp h
  rcases hx with hx | ⟨h0, hx⟩ | ⟨h0, hx⟩
  · exact .inl hx
  · exact .inr (.inl ⟨h1 ▸ h0, hx⟩)
  · obtain ⟨e1, e2, e3, e4, e5⟩ := h2 (by simp [Syl.isLiteral, h0])
    exact .inr (.inr ⟨h1 ▸ h0, by rw [← e1, ← e2, ← e3, ← e4]; exact hx⟩)

theorem route_accounted (hct : ct.Ok) (hd : WordsPlaced look w) : ∀ (s : List Syl) (n : Int) (a : Nat), PlaceOf w n a →
    Route (ReadEdge ct w look brk) n w.length s → AllAccounted ct look w a s
  | [], n, a, ha, h => by
    cases h
    exact place_unique ha (.inl rfl)
  | x :: xs, n, a, ha, ⟨⟨es, h1, e, h2, h3, h4, h5⟩, h⟩ => by
    obtain ⟨a', b, k1, k2, k3⟩ := reading_accounted hct hd h1 e h2
    rw [h3] at k1
    rw [h4] at k2
    cases place_unique ha k1
    exact ⟨b, ceq_accounted h5 k3, route_accounted hct hd xs _ b k2 h⟩

/-- A letter from `a` on that is in no dictionary word, is not silenced and is none of ห ร อ ว ย is heard. -/
theorem accounted_heard (hct : ct.Ok) {m c : Nat} (hm : w[m]? = some c) (hc : ct.isCons c = true) (hw : ¬ InWord look w m)
    (hs : ¬ Silenced ct w m) (hp : c ∉ u!"หรอวย") : ∀ (s : List Syl) (a : Nat), a ≤ m → AllAccounted ct look w a s →
    ∃ x ∈ s, HeardIn c x
  | [], a, ha, h => by
    cases h
    have := (List.getElem?_eq_some_iff.mp hm).1
    omega
  | x :: xs, a, ha, ⟨b, h, h'⟩ => by
    rcases Nat.lt_or_ge m b with hb | hb
    · refine ⟨x, List.mem_cons_self, ?_⟩
      rcases h with h | ⟨-, h⟩ | ⟨h0, i, k, f, h1, -, ⟨d, h2, h3⟩, h4, h5, h6⟩
      · exact absurd (h m c ha hb hm hc) hw
      · rw [h m c ha hb hm] at hc
        cases hc
      · refine ⟨h0, ?_⟩
        rcases h6 m c ha hb hm hc with ⟨g1, g2⟩ | rfl | h
        · rcases Nat.eq_or_lt_of_le g1 with e | e
          · subst e
            rw [hm] at h2
            cases h2
            rcases h3 with h3 | ⟨rfl, -⟩ | ⟨rfl, -⟩ | h3
            · exact .inl h3
            · exact not_cons hct hc (by decide)
            · exact not_cons hct hc (by decide)
            · cases h3
          · rcases h4 with ⟨-, h4⟩ | ⟨h4, d, cs, k1, k2, k3⟩
            · omega
            · have : m = i + 1 := by omega
              subst this
              rw [hm] at k1
              cases k1
              exact .inr (.inl ⟨cs, k2, k3⟩)
        · obtain ⟨-, -, d, g1, g2, g3⟩ := h5 m rfl
          rw [hm] at g1
          cases g1
          exact .inr (.inr ⟨g2, g3⟩)
        · exfalso
          simp only [List.mem_cons, List.not_mem_nil, or_false, not_or] at hp
          rcases h with h | ⟨h, -⟩ | ⟨h, -⟩ | ⟨h, -⟩ | ⟨-, -, ⟨h, -⟩ | ⟨h, -⟩ | ⟨h, -⟩ | ⟨h, -⟩⟩
          · exact hs h.2
          all_goals omega
    · obtain ⟨y, k1, k2⟩ := accounted_heard hct hm hc hw hs hp xs b hb h'
      exact ⟨y, List.mem_cons_of_mem _ k1, k2⟩

/-! ## Counting -/

theorem filter_length_le (P : Nat → Bool) : ∀ (l : List Nat) (S : List Nat),
    (∀ (m : Nat) c, l[m]? = some c → P c = true → m ∈ S) → (l.filter P).length ≤ S.length
  | [], S, _ => Nat.zero_le _
  | x :: l, S, h => by
    have ih := filter_length_le P l ((S.filter (· ≠ 0)).map (· - 1)) fun m c h1 h2 => by
      have := h (m + 1) c (by simpa using h1) h2
      exact List.mem_map.mpr ⟨m + 1, List.mem_filter.mpr ⟨this, by simp⟩, by omega⟩
    rw [List.length_map] at ih
    rw [List.filter_cons]
    split
    · rename_i hx
      have h0 : 0 ∈ S := h 0 x rfl hx
      have : (S.filter (· ≠ 0)).length < S.length := List.length_filter_lt_length_iff_exists.mpr ⟨0, h0, by simp⟩
      rw [List.length_cons]
      omega
    · exact ih.trans (List.length_filter_le _ _)

/-- Every syllable accounts for at most three letters. -/
theorem accounted_count (P : Nat → Bool)
    (hP : ∀ (m : Nat) c i k v f, w[m]? = some c → P c = true → ct.isCons c = true ∧ ¬ InWord look w m ∧ ¬ Unheard ct w i k v f m c) :
    ∀ (s : List Syl) (a : Nat), AllAccounted ct look w a s →
      ((w.drop a).filter P).length ≤ 3 * (s.filter fun x => x.literal = []).length
  | [], a, h => by
    cases h
    simp
  | x :: xs, a, ⟨b, h, h'⟩ => by
    have ih := accounted_count P hP xs b h'
    rcases Nat.lt_or_ge b a with hab | hab
    · have e : w.drop a = (w.drop b).drop (a - b) := by rw [List.drop_drop, show b + (a - b) = a by omega]
      have k1 : ((w.drop a).filter P).length ≤ ((w.drop b).filter P).length := by
        rw [e]
        exact ((List.drop_sublist _ _).filter _).length_le
      have k2 : (xs.filter fun x => x.literal = []).length ≤ ((x :: xs).filter fun x => x.literal = []).length :=
        ((List.sublist_cons_self _ _).filter _).length_le
      omega
    · have e : w.drop a = piece w a b ++ w.drop b := by
        unfold piece
        conv_lhs => rw [← List.take_append_drop (b - a) (w.drop a)]
        rw [List.drop_drop, show a + (b - a) = b by omega]
      rw [e, List.filter_append, List.length_append]
      have none : (∀ m c, a ≤ m → m < b → w[m]? = some c → P c = false) → ((piece w a b).filter P).length = 0 := by
        intro hn
        rw [List.length_eq_zero_iff, List.filter_eq_nil_iff]
        intro c hc
        obtain ⟨m, hm⟩ := List.mem_iff_getElem?.mp hc
        obtain ⟨k1, k2⟩ := piece_get hm
        simp [hn _ c (by omega) k2 k1]
      have le : (xs.filter fun x => x.literal = []).length ≤ ((x :: xs).filter fun x => x.literal = []).length :=
        ((List.sublist_cons_self _ _).filter _).length_le
      rcases h with h | ⟨h0, h⟩ | ⟨h0, i, k, f, h1, -, -, h4, h5, h6⟩
      · rw [none fun m c g1 g2 g3 => ?_]
        · omega
        · by_contra g4
          have g5 := hP m c 0 0 0 Option.none g3 (by simpa using g4)
          exact g5.2.1 (h m c g1 g2 g3 g5.1)
      · rw [none fun m c g1 g2 g3 => ?_]
        · omega
        · by_contra g4
          have g5 := hP m c 0 0 0 Option.none g3 (by simpa using g4)
          rw [h m c g1 g2 g3] at g5
          cases g5.1
      · have k1 : ((piece w a b).filter P).length ≤ [i - a, i + 1 - a, f.getD a - a].length := by
          refine filter_length_le P _ _ fun m c g1 g2 => ?_
          obtain ⟨g3, g4⟩ := piece_get g1
          obtain ⟨g5, -, g7⟩ := hP (a + m) c i k x.vowel f g3 g2
          simp only [List.mem_cons, List.not_mem_nil, or_false]
          rcases h6 (a + m) c (by omega) g4 g3 g5 with ⟨g8, g9⟩ | rfl | g8
          · have : k ≤ i + 2 := by rcases h4 with ⟨-, h4⟩ | ⟨h4, -⟩ <;> omega
            omega
          · exact .inr (.inr (by simp))
          · exact absurd g8 g7
        have k2 : ((x :: xs).filter fun x => x.literal = []).length = (xs.filter fun x => x.literal = []).length + 1 := by
          rw [List.filter_cons, if_pos (by simpa using h0), List.length_cons]
        simp only [List.length_cons, List.length_nil] at k1
        omega

end

end Thpronun.Heard
