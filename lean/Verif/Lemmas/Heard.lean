import Verif.Spec.Heard
import Verif.Lemmas.Listed

/-! # The sounds of a spelled syllable are written -/

namespace Thpronun.Heard
open Res Spec DAG

section
variable {ct : CType} {w : U16Str} {t : Nat}

/-- The final of a rime from `j` on; `ld`: the leading vowels before it. -/
def RF (w : U16Str) (ld : Nat → Prop) (j : Nat) (r : Rime) : Prop :=
  j ≤ r.stop ∧ (r.final = .NONE ∨
    (∃ q c, j ≤ q ∧ q ≤ r.stop ∧ w[q]? = some c ∧ c ∈ finalLetters r.final ∧ r.final ≠ .NONE) ∨
    (r.final = .KOM ∧ ∃ q, j ≤ q ∧ q < r.stop ∧ w[q]? = some ch!"ำ") ∨
    (r.final = .KOEW ∧ ld ch!"เ" ∧ ∃ q, j ≤ q ∧ q < r.stop ∧ w[q]? = some ch!"า") ∨
    (r.final = .KOEY ∧ (ld ch!"ไ" ∨ ld ch!"ใ")))

variable {ld : Nat → Prop} {X : List (Nat × InitConsSound)}

theorem RF.mono {j j' : Nat} {r : Rime} (h : RF w ld j r) (hj : j' ≤ j) : RF w ld j' r := by
  obtain ⟨h1, h | ⟨q, c, k1, k2, k3⟩ | ⟨e, q, k1, k2⟩ | ⟨e, l, q, k1, k2⟩ | h⟩ := h
  · exact ⟨hj.trans h1, .inl h⟩
  · exact ⟨hj.trans h1, .inr (.inl ⟨q, c, hj.trans k1, k2, k3⟩)⟩
  · exact ⟨hj.trans h1, .inr (.inr (.inl ⟨e, q, hj.trans k1, k2⟩))⟩
  · exact ⟨hj.trans h1, .inr (.inr (.inr (.inl ⟨e, l, q, hj.trans k1, k2⟩)))⟩
  · exact ⟨hj.trans h1, .inr (.inr (.inr (.inr h)))⟩

theorem rf_none {j k : Nat} {b : Bool} {v : Vowel} {m : Tone} (h : j ≤ k) : RF w ld j ⟨k, b, v, .NONE, m⟩ := ⟨h, .inl rfl⟩

theorem skip_le {j k : Nat} (h : Skip ct w t j k) : j ≤ k := by
  rcases h with ⟨-, h⟩ | ⟨-, h⟩ <;> omega

theorem skipIU_le {j k : Nat} (h : SkipIU ct w t j k) : j ≤ k := by
  rcases h with ⟨-, h⟩ | ⟨-, h⟩ <;> omega

theorem skipAny_le {j k : Nat} (h : SkipAny ct w t j k) : j ≤ k := by
  rcases h with ⟨-, h⟩ | ⟨-, -, h⟩ | ⟨-, -, h⟩ <;> omega

theorem mark_le {j k : Nat} {m : Tone} (h : MarkAt ct w t j m k) : j ≤ k := by
  rcases h with ⟨_, -, -, -, h⟩ | ⟨-, -, h⟩ <;> omega

theorem open_rf {j : Nat} {v : Vowel} {m : Tone} {r : Rime} (h : Open ct w t j v .NONE m r) : RF w ld j r := by
  obtain ⟨k, h1, rfl⟩ := h
  exact rf_none (skip_le h1)

/-- An open rime with a final that is the character before `j`. -/
theorem open_fin {j c : Nat} {v : Vowel} {f : EndConsClass} {m : Tone} {r : Rime} (h : Open ct w t (j + 1) v f m r)
    (hc : At w t j c) (hf : c ∈ finalLetters f) (hn : f ≠ .NONE) : RF w ld j r := by
  obtain ⟨k, h1, rfl⟩ := h
  have := skip_le h1
  exact ⟨by show j ≤ k; omega, .inr (.inl ⟨j, c, Nat.le_refl _, by show j ≤ k; omega, hc.2, hf, hn⟩)⟩

theorem shut_rf {j : Nat} {excl : U16Str} {v : Vowel} {m : Tone} {r : Rime} (h : Shut ct w t j excl v m r) : RF w ld j r := by
  obtain ⟨k, b, f, ⟨c, ⟨h1, -, h3, h4, -⟩, -, h2⟩, rfl⟩ := h
  have := skipAny_le h2
  exact ⟨by show j ≤ k; omega, .inr (.inl ⟨j, c, Nat.le_refl _, by show j ≤ k; omega, h1.2, h3, h4⟩)⟩

theorem shutX_rf {j : Nat} {excl : U16Str} {v : Vowel} {m : Tone} {r : Rime} (h : ShutX ct w t j excl v m r) :
    RF w ld j r := by
  obtain ⟨k, b, f, ⟨c, ⟨h1, -, h3, h4, -⟩, h2⟩, rfl⟩ := h
  have hk : j ≤ k := by
    rcases h2 with ⟨-, h2⟩ | ⟨-, ⟨-, h2, -⟩ | ⟨-, h2, -⟩⟩
    · have := skipAny_le h2; omega
    · omega
    · omega
  exact ⟨hk, .inr (.inl ⟨j, c, Nat.le_refl _, hk, h1.2, h3, h4⟩)⟩

/-! ## Rimes -/

theorem han_rf {j : Nat} {r : Rime} (h : HanRime ct w t j r) : RF w ld j r := by
  obtain ⟨-, m, k, h2, h3⟩ := h
  have := mark_le h2
  rcases h3 with ⟨-, -, h⟩ | ⟨-, -, h⟩ | ⟨-, -, h⟩ | ⟨-, -, h⟩
  · exact (open_rf h).mono (by omega)
  · exact (open_rf h).mono (by omega)
  · exact (shutX_rf h).mono (by omega)
  · exact (shut_rf h).mono (by omega)

theorem signFinal_rf {k : Nat} {v : Vowel} {m : Tone} {r : Rime} (h : SignFinal ct w t k v m r) : RF w ld k r := by
  rcases h.2 with ⟨-, -, h⟩ | ⟨-, -, h⟩ | ⟨-, -, h⟩ | ⟨-, -, -, h⟩
  · exact (open_rf h).mono (by omega)
  · exact shut_rf h
  · exact shut_rf h
  · exact shutX_rf h

theorem sign_rf {j : Nat} {r : Rime} (h : SignRime ct w t j r) : RF w ld j r := by
  obtain ⟨c, v, m, k, -, -, -, h1, h2⟩ := h
  have := mark_le h1
  rcases h2 with ⟨-, -, h⟩ | ⟨-, ⟨-, rfl | h⟩ | ⟨-, -, rfl⟩ | ⟨-, -, rfl | h⟩⟩
  · exact (signFinal_rf h).mono (by omega)
  · exact rf_none (by omega)
  · exact (signFinal_rf h).mono (by omega)
  · exact rf_none (by omega)
  · exact rf_none (by omega)
  · exact (signFinal_rf h).mono (by omega)

theorem shortO_rf {j : Nat} {r : Rime} (h : ShortORime ct w t j r) : RF w ld j r := by
  obtain ⟨-, -, k, h3, h4⟩ := h
  have := skip_le h3
  exact (shut_rf h4).mono (by omega)

theorem ro_rf {o : Onset} {k : Nat} {m : Tone} {r : Rime} (h : RoRime ct w t o k m r) : RF w ld k r := by
  obtain ⟨h1, h2⟩ := h
  rcases h2 with ⟨-, h2⟩ | ⟨k', h2, h3, h4⟩
  · exact open_fin h2 h1 (by decide) (by decide)
  · have hk : k ≤ k' := by
      split at h2
      · omega
      · have := skip_le h2; omega
    rcases h4 with h4 | ⟨-, h4⟩
    · exact (open_fin h4 h3 (by decide) (by decide)).mono hk
    · exact (shutX_rf h4).mono (by omega)

theorem plain_rf {o : Onset} {l : Bool} {j : Nat} {r : Rime} (h : PlainRime ct w t o l j r) : RF w ld j r := by
  obtain ⟨m, k, h1, h2⟩ := h
  have := mark_le h1
  rcases h2 with ⟨-, k2⟩ | ⟨-, k2 | ⟨k', k2, k3⟩⟩ | ⟨k1, k', k2, rfl⟩ | ⟨-, k2⟩ | ⟨-, k2 | ⟨k', k2, k3⟩⟩ | h2 |
    ⟨-, -, -, h2⟩ | ⟨v, c, -, -, -, -, rfl | h2⟩
  · exact (open_rf k2).mono (by omega)
  · exact (open_rf k2).mono (by omega)
  · have := skip_le k2
    exact (shutX_rf k3).mono (by omega)
  · have := skip_le k2
    exact ⟨by show j ≤ k'; omega, .inr (.inr (.inl ⟨rfl, k, by omega, by show k < k'; omega, k1.2⟩))⟩
  · exact (shut_rf k2).mono (by omega)
  · exact (open_rf k2).mono (by omega)
  · have := skip_le k2
    exact (shut_rf k3).mono (by omega)
  · exact (ro_rf h2).mono (by omega)
  · exact (shut_rf h2).mono (by omega)
  · exact rf_none (by omega)
  · exact (shutX_rf h2).mono (by omega)

theorem cons_rf {o : Onset} {l : Bool} {r : Rime} (h : ConsRime ct w t o l r) : RF w ld o.stop r := by
  rcases h with h | h | h | h
  · exact han_rf h
  · exact sign_rf h
  · exact shortO_rf h
  · exact plain_rf h

theorem mid_rf {a b : Nat} {v v' : Vowel} {j : Nat} {f : Bool} {r : Rime} (h : MidRime ct w t a b v v' j f r) :
    RF w ld j r := by
  obtain ⟨-, m, k, h1, -, ⟨-, h2⟩ | ⟨-, h2 | ⟨k', h2, h3⟩⟩⟩ := h
  · have := mark_le h1
    exact (open_rf h2).mono (by omega)
  · have := mark_le h1
    exact (open_rf h2).mono (by omega)
  · have := mark_le h1
    have := skip_le h2
    cases f
    · exact (shut_rf h3).mono (by omega)
    · exact (shutX_rf h3).mono (by omega)

theorem e_rf {o : Onset} {r : Rime} (hl : ld ch!"เ") (h : ERime ct w t o r) : RF w ld o.stop r := by
  rcases h with ⟨-, -, rfl⟩ | ⟨-, m, k, k', h1, h2, h3⟩ | h | h | ⟨-, h⟩ | ⟨-, m, k, h1, h2⟩
  · exact rf_none (Nat.le_refl _)
  · have := mark_le h1
    have := skip_le h2
    exact (shut_rf h3).mono (by omega)
  · exact mid_rf h
  · exact mid_rf h
  · exact (shut_rf h).mono (by omega)
  · have := mark_le h1
    rcases h2 with ⟨-, rfl⟩ | ⟨-, ⟨-, h⟩ | ⟨-, h⟩ | ⟨-, h⟩⟩ | ⟨-, -, h⟩ | ⟨k1, ⟨-, h⟩ | ⟨-, k', h, rfl⟩⟩ | ⟨k1, -, h⟩ |
      ⟨c, -, -, -, -, -, h | ⟨k', h2, h⟩⟩
    · exact rf_none (by omega)
    · exact (open_rf h).mono (by omega)
    · exact (open_rf h).mono (by omega)
    · exact (open_rf h).mono (by omega)
    · exact (open_rf h).mono (by omega)
    · exact (open_rf h).mono (by omega)
    · have := skip_le h
      exact ⟨by show o.stop ≤ k'; omega, .inr (.inr (.inr (.inl ⟨rfl, hl, k, by omega, by show k < k'; omega, k1.2⟩)))⟩
    · exact (open_fin h k1 (by decide) (by decide)).mono (by omega)
    · exact (open_rf h).mono (by omega)
    · have := skip_le h2
      exact (shutX_rf h).mono (by omega)

theorem lead_rf {v j : Nat} {r : Rime} (hl : ld v) (h : LeadRime ct w t v j r) : RF w ld j r := by
  obtain ⟨m, k, h1, h2⟩ := h
  have := mark_le h1
  have ai : ∀ {b}, ld ch!"ไ" ∨ ld ch!"ใ" → AiRime ct w t b k m r → RF w ld j r := by
    rintro b hb (⟨k', h, rfl⟩ | ⟨-, -, -, rfl⟩)
    · have := skip_le h
      exact ⟨by show j ≤ k'; omega, .inr (.inr (.inr (.inr ⟨rfl, hb⟩)))⟩
    · exact ⟨by show j ≤ k + 1; omega, .inr (.inr (.inr (.inr ⟨rfl, hb⟩)))⟩
  rcases h2 with ⟨-, h⟩ | ⟨-, h⟩ | ⟨rfl, h⟩ | ⟨rfl, h⟩
  · rcases h with ⟨-, h⟩ | ⟨-, h⟩ | ⟨-, -, h | ⟨k', h2, h⟩⟩
    · exact (open_rf h).mono (by omega)
    · exact (shut_rf h).mono (by omega)
    · exact (open_rf h).mono (by omega)
    · have := skip_le h2
      exact (shut_rf h).mono (by omega)
  · rcases h with ⟨-, ⟨-, rfl⟩ | ⟨-, k', h, rfl⟩⟩ | ⟨-, ⟨-, rfl | h⟩ | ⟨-, -, rfl⟩ | ⟨-, -, rfl | h⟩⟩
    · exact rf_none (by omega)
    · have := skipIU_le h
      exact rf_none (by omega)
    · exact rf_none (by omega)
    · exact (shutX_rf h).mono (by omega)
    · exact rf_none (by omega)
    · exact rf_none (by omega)
    · exact (shutX_rf h).mono (by omega)
  · exact ai (.inl hl) h
  · exact ai (.inr hl) h

theorem ru_rf {i : Nat} {r : Rime} (h : RuRime ct w t i r) : RF w ld (i + 1) r := by
  rcases h with ⟨-, rfl⟩ | ⟨-, rfl⟩ | ⟨d, -, -, ⟨-, rfl⟩ | ⟨-, h⟩⟩
  · exact rf_none (Nat.le_refl _)
  · exact rf_none (by omega)
  · exact rf_none (Nat.le_refl _)
  · exact shutX_rf h

/-! ## Onsets -/

/-- The consonants of an onset at `i`: the sound and the second consonant, after the pre-syllable if there is one. -/
def OF (X : List (Nat × InitConsSound)) (w : U16Str) (i : Nat) (o : Onset) : Prop :=
  (o.pre = none ∧ ∃ n c k, (n = i ∨ n = i + 1) ∧ w[n]? = some c ∧ Heard X c o.sound ∧ SecondAt w (n + 1) o.second k ∧ k ≤ o.stop) ∨
  (∃ s cls v c c', o.pre = some (openSyl s cls v) ∧ w[i]? = some c ∧ Heard X c s ∧ w[i + 1]? = some c' ∧ Heard X c' o.sound ∧
    o.second = SC.NONE ∧ i + 2 ≤ o.stop)

theorem of_one {i c k : Nat} {snd : InitConsSound} {cls : InitConsClass} {inh : Option Vowel} (h : w[i]? = some c)
    (hc : Letter ct c snd cls) (hk : i + 1 ≤ k) : OF X w i ⟨k, none, snd, cls, SC.NONE, inh⟩ :=
  .inl ⟨rfl, i, c, i + 1, .inl rfl, h, .inl hc.2.1, .inl ⟨rfl, rfl⟩, hk⟩

theorem of_pre {i c c' k : Nat} {snd snd' : InitConsSound} {cls cls' : InitConsClass} {v : Vowel} {inh : Option Vowel}
    (h : w[i]? = some c) (hc : Letter ct c snd cls) (h' : w[i + 1]? = some c') (hc' : Heard X c' snd') (hk : i + 2 ≤ k) :
    OF X w i ⟨k, some (openSyl snd cls v), snd', cls', SC.NONE, inh⟩ :=
  .inr ⟨snd, cls, v, c, c', rfl, h, .inl hc.2.1, h', hc', rfl, hk⟩

theorem onset_of {i : Nat} {l : Bool} {o : Onset} (h : OnsetAt ct w t i l o) : OF X w i o := by
  obtain ⟨c, snd, cls, h1, hc, rfl | ⟨d, snd2, cls2, h3, hd, -, h4⟩ | ⟨⟨h3, -⟩, h4⟩⟩ := h
  · exact of_one h1 hc (Nat.le_refl _)
  · rcases h4 with ⟨cs, s, h5, -, -, rfl⟩ | ⟨-, -, -, rfl⟩ | ⟨-, -, rfl⟩ | rfl
    · have : ∀ x ∈ trueClusters, ∃ cs, (x.2.2, cs) ∈ secondLetters ∧ x.2.1 ∈ cs := by
        intro x hx
        simp only [trueClusters, List.mem_cons, List.not_mem_nil, or_false] at hx
        rcases hx with rfl | rfl | rfl
        · exact ⟨u!"รฤ", by decide, by decide⟩
        · exact ⟨u!"ล", by decide, by decide⟩
        · exact ⟨u!"ว", by decide, by decide⟩
      obtain ⟨ds, k1, k2⟩ := this _ h5
      exact .inl ⟨rfl, i, c, i + 2, .inl rfl, h1, .inl hc.2.1, .inr ⟨rfl, d, ds, h3.2, k1, k2⟩, Nat.le_refl _⟩
    · exact of_one h1 hc (by omega)
    · exact .inl ⟨rfl, i + 1, d, i + 2, .inr rfl, h3.2, .inl hd.2.1, .inl ⟨rfl, rfl⟩, Nat.le_refl _⟩
    · exact of_pre h1 hc h3.2 (.inl hd.2.1) (Nat.le_refl _)
  · have hr : Heard X ch!"ฤ" .RA := .inr (.inl ⟨rfl, rfl⟩)
    have hs : (SC.RA, u!"รฤ") ∈ secondLetters := by decide
    have joined : ∀ v, OF X w i ⟨i + 2, none, snd, cls, SC.RA, some v⟩ := fun v =>
      .inl ⟨rfl, i, c, i + 2, .inl rfl, h1, .inl hc.2.1, .inr ⟨rfl, _, u!"รฤ", h3.2, hs, by decide⟩, Nat.le_refl _⟩
    rcases h4 with ⟨-, rfl⟩ | ⟨-, rfl | rfl⟩ | ⟨-, rfl⟩ | ⟨-, rfl⟩ | ⟨-, -, rfl⟩ | ⟨-, v, -, ⟨-, rfl⟩ | rfl⟩
    · exact joined _
    · exact of_one h1 hc (by omega)
    · exact of_pre h1 hc h3.2 hr (Nat.le_refl _)
    · exact joined _
    · exact of_pre h1 hc h3.2 hr (Nat.le_refl _)
    · exact joined _
    · exact joined _
    · exact of_pre h1 hc h3.2 hr (Nat.le_refl _)

theorem whole_of {i : Nat} {o : Onset} {r : Rime} (h : WholeAt ct w t i o r) :
    OF X w i o ∧ o.stop = r.stop ∧ r.final = .NONE := by
  obtain ⟨c, snd, cls, h1, hc, h2⟩ := h
  have hr : Heard X ch!"ร" .RA := .inl (by decide)
  have hr' : Heard X ch!"ฤ" .RA := .inr (.inl ⟨rfl, rfl⟩)
  rcases h2 with ⟨-, rfl, rfl⟩ | ⟨-, -, -, -, rfl, rfl⟩ |
    ⟨h3, -, -, ⟨-, -, rfl, rfl⟩ | ⟨-, -, rfl, rfl⟩ | ⟨-, -, rfl, rfl⟩⟩ | ⟨⟨h3, -⟩, -, rfl, rfl⟩
  · exact ⟨of_one h1 hc (Nat.le_refl _), rfl, rfl⟩
  · exact ⟨of_one h1 hc (Nat.le_refl _), rfl, rfl⟩
  · exact ⟨of_pre h1 hc h3.2 hr (Nat.le_refl _), rfl, rfl⟩
  · exact ⟨of_pre h1 hc h3.2 hr (by omega), rfl, rfl⟩
  · exact ⟨of_pre h1 hc h3.2 hr (by omega), rfl, rfl⟩
  · exact ⟨of_pre h1 hc h3.2 hr' (Nat.le_refl _), rfl, rfl⟩

/-! ## Syllables -/

theorem final_by {p i k : Nat} {r : Rime} {j : Nat} (h : RF w (fun v => w[p]? = some v ∧ (p + 1 = i ∨ p + 2 = i)) j r)
    (hk : k ≤ j) : k ≤ r.stop ∧ FinalBy w i k r.stop r.final := by
  have led : ∀ {v}, (w[p]? = some v ∧ (p + 1 = i ∨ p + 2 = i)) → LedBy w i v := fun h => ⟨p, h.2, h.1⟩
  obtain ⟨h1, h | h | h | ⟨e, l, h⟩ | ⟨e, h⟩⟩ := h.mono hk
  · exact ⟨h1, .inl h⟩
  · exact ⟨h1, .inr (.inl h)⟩
  · exact ⟨h1, .inr (.inr (.inl h))⟩
  · exact ⟨h1, .inr (.inr (.inr (.inl ⟨e, led l, h⟩)))⟩
  · exact ⟨h1, .inr (.inr (.inr (.inr ⟨e, h.imp led led⟩)))⟩

variable (hct : ct.Ok)
include hct

/-- The sounds of a spelled syllable. -/
theorem spelled_heard {p : Nat} {l : Bool} {o : Onset} {r : Rime} (h : Spelled ct w t p l o r) :
    (o.pre = none ∧ WrittenIn X w p r.stop (spoken o r)) ∨
    (∃ s, o.pre = some s ∧ WrittenIn X w p (firstCons w p + 1) s ∧ WrittenIn X w (firstCons w p + 1) r.stop (spoken o r)) := by
  have key : ∀ i, p ≤ i → i = firstCons w p → OF X w i o →
      (∀ n, n = i ∨ n = i + 1 → RF w (fun v => w[p]? = some v ∧ (p + 1 = n ∨ p + 2 = n)) o.stop r) →
      (o.pre = none ∧ WrittenIn X w p r.stop (spoken o r)) ∨
      (∃ s, o.pre = some s ∧ WrittenIn X w p (firstCons w p + 1) s ∧ WrittenIn X w (firstCons w p + 1) r.stop (spoken o r)) := by
    rintro i hi hb (⟨h1, n, c, k, hn, h2, h3, h4, h5⟩ | ⟨s, cls, v, c, c', h1, h2, h3, h4, h5, h6, h7⟩) hr
    · obtain ⟨k1, k2⟩ := final_by (hr n hn) h5
      exact .inl ⟨h1, .inr ⟨rfl, n, k, c, by omega, h2, h3, h4, k1, k2⟩⟩
    · obtain ⟨k1, k2⟩ := final_by (hr (i + 1) (.inr rfl)) h7
      refine .inr ⟨_, h1, .inr ⟨rfl, i, i + 1, c, hi, h2, h3, .inl ⟨rfl, rfl⟩, by omega, .inl rfl⟩,
        .inr ⟨rfl, i + 1, i + 2, c', by omega, h4, h5, .inl ⟨h6, rfl⟩, k1, k2⟩⟩
  have flat : ∀ {c : Nat}, w[p]? = some c → ¬ (0x0e40 ≤ c ∧ c ≤ 0x0e44) → p = firstCons w p := by
    intro c hc hn
    rw [firstCons, if_neg]
    rw [hc]
    simpa using hn
  have led : ∀ {c : Nat}, w[p]? = some c → 0x0e40 ≤ c ∧ c ≤ 0x0e44 → p + 1 = firstCons w p := by
    intro c hc hn
    rw [firstCons, if_pos]
    rw [hc]
    simpa using hn
  obtain ⟨c, hc, h | h | h | h⟩ := h
  · have hl : ¬ (0x0e40 ≤ c ∧ c ≤ 0x0e44) := by
      have h1 := hct.cons c h.1
      omega
    obtain ⟨h1, ⟨h2, -, h3⟩ | ⟨h2, -⟩⟩ := h
    · exact key p (Nat.le_refl _) (flat hc hl) (onset_of h2) fun n _ => cons_rf h3
    · obtain ⟨k1, k2, k3⟩ := whole_of h2
      exact key p (Nat.le_refl _) (flat hc hl) k1 fun n _ => ⟨by rw [k2], .inl k3⟩
  · obtain ⟨rfl, -, h2, h3⟩ := h
    exact key (p + 1) (by omega) (led hc (by decide)) (onset_of h2) fun n hn => e_rf ⟨hc, by omega⟩ h3
  · obtain ⟨h1, -, h2, h3⟩ := h
    exact key (p + 1) (by omega) (led hc (hct.ld c h1)) (onset_of h2) fun n hn => lead_rf ⟨hc, by omega⟩ h3
  · obtain ⟨h1, rfl, h3⟩ := h
    have hl : ¬ (0x0e40 ≤ c ∧ c ≤ 0x0e44) := by omega
    refine key p (Nat.le_refl _) (flat hc hl) ?_ fun n _ => ru_rf h3
    refine .inl ⟨rfl, p, c, p + 1, .inl rfl, hc, ?_, .inl ⟨rfl, rfl⟩, Nat.le_refl _⟩
    rcases h1 with rfl | rfl
    · exact .inr (.inl ⟨rfl, rfl⟩)
    · exact .inr (.inr (.inl ⟨rfl, rfl⟩))

omit hct in
theorem WrittenIn.mono {a b b' : Nat} {x : Syl} (h : WrittenIn X w a b x) (hb : b ≤ b') : WrittenIn X w a b' x := by
  obtain ⟨h0, i, h1, h2, h3⟩ | ⟨h0, i, k, c, h1, h2, h3, h4, h5, h6⟩ := h
  · exact .inl ⟨h0, i, h1, h2.trans hb, h3⟩
  · refine .inr ⟨h0, i, k, c, h1, h2, h3, h4, h5.trans hb, ?_⟩
    obtain h | ⟨q, c, k1, k2, k3⟩ | ⟨e, q, k1, k2, k3⟩ | ⟨e, l, q, k1, k2, k3⟩ | h := h6
    · exact .inl h
    · exact .inr (.inl ⟨q, c, k1, k2.trans hb, k3⟩)
    · exact .inr (.inr (.inl ⟨e, q, k1, by omega, k3⟩))
    · exact .inr (.inr (.inr (.inl ⟨e, l, q, k1, by omega, k3⟩)))
    · exact .inr (.inr (.inr (.inr h)))

omit hct in
theorem place_unique {n : Int} {a b : Nat} (ha : PlaceOf w n a) (hb : PlaceOf w n b) : a = b := by
  unfold PlaceOf spanPos at ha hb
  rcases ha with ha | ⟨p, q, h1, h2, h3, h4, h5⟩ <;> rcases hb with hb | ⟨p', q', k1, k2, k3, k4, k5⟩
  · omega
  · omega
  · omega
  · have : p = p' := by omega
    subst this
    omega

/-! ## Edges -/

/-- The syllable of an edge is written between its places. -/
def EdgeWritten (X : List (Nat × InitConsSound)) (w : U16Str) (e : Entry Syl) : Prop :=
  ∃ a b, PlaceOf w e.key a ∧ PlaceOf w e.target b ∧ WrittenIn X w a b e.val

omit hct in
theorem stretch_written {p : Nat} {e : Entry Syl} (h : EdgeWritten X w e) : EdgeWritten X w (stretch p e) := by
  unfold stretch
  split
  · rename_i ht
    obtain ⟨a, b, h1, h2, h3⟩ := h
    rw [ht] at h2
    have : b = p := place_unique h2 (.inl rfl)
    subst this
    exact ⟨a, b + 1, h1, .inl (by push_cast; rfl), WrittenIn.mono h3 (Nat.le_succ b)⟩
  · exact h

omit hct in
theorem piece_get {p q i : Nat} {c : Nat} (h : (piece w p q)[i]? = some c) : w[p + i]? = some c ∧ p + i < q := by
  unfold piece at h
  rw [List.getElem?_take] at h
  split at h
  · rw [List.getElem?_drop] at h
    exact ⟨h, by omega⟩
  · cases h

omit hct in
theorem firstCons_shift {p q i : Nat} (hi : i < (piece w p q).length) : firstCons w (p + i) = p + firstCons (piece w p q) i := by
  have h : (piece w p q)[i]? = some (piece w p q)[i] := List.getElem?_eq_getElem hi
  unfold firstCons
  rw [h, (piece_get h).1]
  split <;> rfl

omit hct in
theorem place_shift {p q a : Nat} {n : Int} (h : PlaceOf (piece w p q) n a) : PlaceOf w (movedEnd p n) (p + a) := by
  rcases h with rfl | ⟨i, j, rfl, h2, h3, h4, rfl⟩
  · exact .inl (by unfold movedEnd; rw [if_neg (by omega)]; push_cast; omega)
  · refine .inr ⟨p + i, p + j, ?_, by omega, by omega, ?_, by rw [firstCons_shift h4]; omega⟩
    · unfold movedEnd spanPos
      rw [if_pos (by omega)]
      push_cast
      omega
    · have := (piece_get (List.getElem?_eq_getElem h4)).1
      exact (List.getElem?_eq_some_iff.mp this).1

omit hct in
theorem written_shift {p q a b : Nat} {x : Syl} (h : WrittenIn X (piece w p q) a b x) : WrittenIn X w (p + a) (p + b) x := by
  have led : ∀ {i v}, LedBy (piece w p q) i v → LedBy w (p + i) v := by
    rintro i v ⟨n, h1, h2⟩
    exact ⟨p + n, by omega, (piece_get h2).1⟩
  obtain ⟨h0, i, h1, h2, h3⟩ | ⟨h0, i, k, c, h1, h2, h3, h4, h5, h6⟩ := h
  · refine .inl ⟨h0, p + i, by omega, by omega, fun j c hc => ?_⟩
    rw [Nat.add_assoc]
    exact (piece_get (h3 j c hc)).1
  · refine .inr ⟨h0, p + i, p + k, c, by omega, (piece_get h2).1, h3, ?_, by omega, ?_⟩
    · rcases h4 with ⟨e, h4⟩ | ⟨h4, d, cs, k1, k2, k3⟩
      · exact .inl ⟨e, by omega⟩
      · exact .inr ⟨by omega, d, cs, by rw [Nat.add_assoc]; exact (piece_get k1).1, k2, k3⟩
    · obtain h | ⟨q, c, k1, k2, k3, k4⟩ | ⟨e, q, k1, k2, k3⟩ | ⟨e, l, q, k1, k2, k3⟩ | ⟨e, h⟩ := h6
      · exact .inl h
      · exact .inr (.inl ⟨p + q, c, by omega, by omega, (piece_get k3).1, k4⟩)
      · exact .inr (.inr (.inl ⟨e, p + q, by omega, by omega, (piece_get k3).1⟩))
      · exact .inr (.inr (.inr (.inl ⟨e, led l, p + q, by omega, by omega, (piece_get k3).1⟩)))
      · exact .inr (.inr (.inr (.inr ⟨e, h.imp led led⟩)))

omit hct in
theorem wordEdges_moved {p : Nat} : ∀ (str : SylString) (n : Int), ∀ e ∈ wordEdges p (movedEnd p n) str,
    ∃ e' ∈ wordEdges 0 n str, e.key = movedEnd p e'.key ∧ e.target = movedEnd p e'.target ∧
      ∃ m, e.val = { e'.val with endPos := m }
  | [], _, e, he => by cases he
  | s :: ss, n, e, he => by
    have h0 : movedEnd 0 s.endPos = s.endPos := by unfold movedEnd; split <;> simp
    simp only [wordEdges, List.mem_cons] at he ⊢
    rcases he with rfl | he
    · exact ⟨_, .inl rfl, rfl, by rw [h0], _, rfl⟩
    · obtain ⟨e', h1, h2⟩ := wordEdges_moved ss s.endPos e he
      rw [h0]
      exact ⟨e', .inr h1, h2⟩

end

section
variable {ct : CType} {w : U16Str} {look : List Nat → Option Str} {brk : List Int} {X : List (Nat × InitConsSound)}

theorem words_written {p q : Nat} {str : SylString} (h : EntryWritten X (piece w p q) str) :
    ∀ e ∈ wordEdges p p str, EdgeWritten X w e := by
  intro e he
  have h0 : movedEnd p 0 = p := by simp [movedEnd]
  have he : e ∈ wordEdges p (movedEnd p 0) str := by rw [h0]; exact he
  obtain ⟨e', h1, h2, h3, m, h4⟩ := wordEdges_moved str 0 e he
  obtain ⟨a, b, k1, k2, k3⟩ := h e' h1
  refine ⟨p + a, p + b, by rw [h2]; exact place_shift k1, by rw [h3]; exact place_shift k2, ?_⟩
  rw [h4]
  exact written_shift k3

theorem names_written {p q : Nat} {new : List (Entry Syl)} (h : AbbrNames w p q new) (hpq : p < q) :
    ∀ e ∈ new, EdgeWritten X w e := by
  intro e he
  rcases h with ⟨h1, rfl⟩ | ⟨-, cs, h1, h2, h3⟩
  · cases List.mem_singleton.mp he
    refine ⟨p, q, .inl rfl, .inl rfl, .inl ⟨List.cons_ne_nil _ _, p, Nat.le_refl _, hpq, fun j c hc => ?_⟩⟩
    change [ch!"."][j]? = some c at hc
    match j, hc with
    | 0, hc => cases hc; exact h1
  · obtain ⟨i, hi⟩ := List.mem_iff_getElem?.mp he
    have hi' := (List.getElem?_eq_some_iff.mp hi).1
    have hc : cs[i]? = some (cs[i]'(by omega)) := List.getElem?_eq_getElem _
    obtain ⟨k1, k2, snd, cls, k3, -, k5⟩ := h3 i _ e hc hi
    have hw : (piece w p q)[i]? = some (cs[i]'(by omega)) := by
      rcases h1 with h1 | ⟨h1, -⟩
      · rw [h1, List.getElem?_append_left (by omega)]
        exact hc
      · rw [h1]
        exact hc
    obtain ⟨k6, k7⟩ := piece_get hw
    refine ⟨p + i, if i + 1 = cs.length then q else p + i + 1, .inl k1, .inl (by rw [k2]; split <;> rfl), ?_⟩
    rw [k5]
    refine .inr ⟨rfl, p + i, p + i + 1, _, Nat.le_refl _, k6, .inl k3, .inl ⟨rfl, rfl⟩, ?_, .inl rfl⟩
    split <;> omega

theorem step_written (hct : ct.Ok) (hd : WordsWritten X look w) {c c' : Config} (h : Rule ct w look brk c c')
    (hc : ∀ e ∈ c.edges, EdgeWritten X w e) : ∀ e ∈ c'.edges, EdgeWritten X w e := by
  intro e he
  cases h with
  | @other p l es q h =>
    rcases List.mem_append.mp he with he | he
    · exact hc e he
    · cases List.mem_singleton.mp he
      obtain ⟨h1, h2, -⟩ := h
      have hl : (piece w p q).length = q - p := by simp [piece]; omega
      refine ⟨p, q, .inl rfl, .inl rfl, .inl ⟨fun e => ?_, p, Nat.le_refl _, ?_, fun j c hj => (piece_get hj).1⟩⟩
      · change piece w p q = [] at e
        rw [e] at hl
        simp at hl
        omega
      · change p + (piece w p q).length ≤ q
        omega
  | word _ h2 h3 h4 =>
    rcases List.mem_append.mp he with he | he
    · exact hc e he
    · exact words_written (hd _ _ _ _ _ h2.2.2.1 h3 h4) e he
  | abbr h1 _ h3 h4 =>
    rcases List.mem_append.mp he with he | he
    · exact hc e he
    · exact names_written h4 h3.lt e he
  | @syl p l es t o r h1 h2 h3 h4 =>
    rcases List.mem_append.mp he with he | he
    · exact hc e he
    · obtain ⟨k1, k2, -⟩ := spelled_emit hct h1 h4
      have hp : p < w.length := by have := h1.1; have := h1.2.1; omega
      rcases spelled_heard (X := X) hct h4 with ⟨k3, k4⟩ | ⟨s, k3, k4, k5⟩
      · unfold spelledEdges at he
        rw [k3] at he
        cases List.mem_singleton.mp he
        exact ⟨p, r.stop, .inl rfl, .inl rfl, k4⟩
      · unfold spelledEdges at he
        rw [k3] at he
        have hn : PlaceOf w (spanPos p r.stop) (firstCons w p + 1) := .inr ⟨p, r.stop, rfl, k1, k2, hp, rfl⟩
        simp only [List.mem_cons, List.not_mem_nil, or_false] at he
        rcases he with rfl | rfl
        · exact ⟨p, _, .inl rfl, hn, k4⟩
        · exact ⟨_, r.stop, hn, .inl rfl, k5⟩
  | dot =>
    obtain ⟨e', h1, rfl⟩ := List.mem_map.mp he
    exact stretch_written (hc e' h1)

theorem reading_written (hct : ct.Ok) (hd : WordsWritten X look w) {es : List (Entry Syl)} (h : RuleReading ct w look brk es) :
    ∀ e ∈ es, EdgeWritten X w e := by
  obtain ⟨c, h1, -, rfl⟩ := h
  have key : ∀ {c : Config}, Relation.ReflTransGen (Rule ct w look brk) ⟨0, false, []⟩ c → ∀ e ∈ c.edges, EdgeWritten X w e := by
    intro c h
    induction h with
    | refl => intro e he; cases he
    | tail _ h2 ih => exact step_written hct hd h2 ih
  exact key h1

theorem ceq_written {a b : Nat} {x y : Syl} (h : ceq x y = true) (hx : WrittenIn X w a b x) : WrittenIn X w a b y := by
  obtain ⟨h1, h2⟩ := (Syl.eq_iff x y).mp h
  rcases hx with ⟨h0, hx⟩ | ⟨h0, hx⟩
  · exact .inl ⟨h1 ▸ h0, h1 ▸ hx⟩
  · obtain ⟨e1, e2, e3, e4, e5⟩ := h2 (by simp [Syl.isLiteral, h0])
    exact .inr ⟨h1 ▸ h0, by rw [← e1, ← e2, ← e4]; exact hx⟩

theorem route_written (hct : ct.Ok) (hd : WordsWritten X look w) : ∀ (s : List Syl) (n : Int) (a : Nat), PlaceOf w n a →
    Route (ReadEdge ct w look brk) n w.length s → Written X w a s
  | [], n, a, ha, h => by
    cases h
    exact Nat.le_of_eq (place_unique ha (.inl rfl))
  | x :: xs, n, a, ha, ⟨⟨es, h1, e, h2, h3, h4, h5⟩, h⟩ => by
    obtain ⟨a', b, k1, k2, k3⟩ := reading_written hct hd h1 e h2
    rw [h3] at k1
    rw [h4] at k2
    cases place_unique ha k1
    refine ⟨b, ?_, route_written hct hd xs _ b k2 h⟩
    exact ceq_written h5 k3

end

end Thpronun.Heard
