import Verif.Spec.Reading
import Mathlib.Tactic.Tauto

/-! # Moving a syllable in the text

The spelling rules depend only on the characters of the token from the syllable on, not on where they stand. -/

set_option linter.unusedSimpArgs false

namespace Thpronun
open Spec

namespace Spec

/-- The same onset, `d` positions later. -/
def Onset.shift (d : Nat) (o : Onset) : Onset := { o with stop := o.stop + d }

/-- The same rime, `d` positions later. -/
def Rime.shift (d : Nat) (r : Rime) : Rime := { r with stop := r.stop + d }

end Spec

section
variable {ct : CType} {w w' : U16Str} {t d : Nat}

/-- The characters of the token from `d` on are those of the other token. -/
def Moved (w w' : U16Str) (t d : Nat) : Prop := ∀ i c, At w (t + d) (i + d) c ↔ At w' t i c

theorem sh1 (d i : Nat) : i + d + 1 = i + 1 + d := by omega
theorem sh2 (d i : Nat) : i + d + 2 = i + 2 + d := by omega
theorem sh3 (d i : Nat) : i + d + 3 = i + 3 + d := by omega

theorem ex_shift {P Q : Nat → Prop} (h : ∀ k, P k → d ≤ k) :
    (∃ k, P k ∧ Q k) ↔ ∃ k, P (k + d) ∧ Q (k + d) := by
  constructor
  · rintro ⟨k, h1, h2⟩
    exact ⟨k - d, by rw [Nat.sub_add_cancel (h k h1)]; exact ⟨h1, h2⟩⟩
  · rintro ⟨k, h1⟩
    exact ⟨_, h1⟩

theorem rime_shift_eq {r : Rime} {k b v f m} :
    r.shift d = ⟨k + d, b, v, f, m⟩ ↔ r = ⟨k, b, v, f, m⟩ := by
  cases r; simp [Rime.shift]

theorem onset_shift_eq {o : Onset} {k p s c s2 v} :
    o.shift d = ⟨k + d, p, s, c, s2, v⟩ ↔ o = ⟨k, p, s, c, s2, v⟩ := by
  cases o; simp [Onset.shift]

variable (H : Moved w w' t d)
include H


theorem startAt_shift (i : Nat) : StartAt ct w (t + d) (i + d) ↔ StartAt ct w' t i := by
  simp only [StartAt, H _ _]

theorem endOrStart_shift (i : Nat) : EndOrStart ct w (t + d) (i + d) ↔ EndOrStart ct w' t i := by
  simp only [EndOrStart, startAt_shift H, Nat.add_le_add_iff_right]

theorem silent_shift (i : Nat) : Silent ct w (t + d) (i + d) ↔ Silent ct w' t i := by
  simp only [Silent, sh1 d, sh2 d, H _ _]

theorem silent2_shift (A : Nat → Prop) (i : Nat) : Silent2 ct w (t + d) A (i + d) ↔ Silent2 ct w' t A i := by
  simp only [Silent2, sh1 d, sh2 d, H _ _]

theorem skip_shift (i k : Nat) : Skip ct w (t + d) (i + d) (k + d) ↔ Skip ct w' t i k := by
  simp only [Skip, silent_shift H, sh1 d, sh2 d, sh3 d, Nat.add_right_cancel_iff]

omit H in
theorem skip_ge {i k : Nat} (h : Skip ct w t i k) : i ≤ k := by
  rcases h with ⟨-, rfl⟩ | ⟨-, rfl⟩ <;> omega

theorem ex_skip {i : Nat} {Q : Nat → Prop} :
    (∃ k, Skip ct w (t + d) (i + d) k ∧ Q k) ↔ ∃ k, Skip ct w' t i k ∧ Q (k + d) := by
  rw [ex_shift (d := d) fun k h => Nat.le_trans (Nat.le_add_left d i) (skip_ge h)]
  simp only [skip_shift H]

theorem skipIU_shift (i k : Nat) : SkipIU ct w (t + d) (i + d) (k + d) ↔ SkipIU ct w' t i k := by
  simp only [SkipIU, silent2_shift H, sh1 d, sh2 d, sh3 d, Nat.add_right_cancel_iff]

omit H in
theorem skipIU_ge {i k : Nat} (h : SkipIU ct w t i k) : i ≤ k := by
  rcases h with ⟨-, rfl⟩ | ⟨-, rfl⟩ <;> omega

theorem ex_skipIU {i : Nat} {Q : Nat → Prop} :
    (∃ k, SkipIU ct w (t + d) (i + d) k ∧ Q k) ↔ ∃ k, SkipIU ct w' t i k ∧ Q (k + d) := by
  rw [ex_shift (d := d) fun k h => Nat.le_trans (Nat.le_add_left d i) (skipIU_ge h)]
  simp only [skipIU_shift H]

theorem skipAny_shift (i k : Nat) : SkipAny ct w (t + d) (i + d) (k + d) ↔ SkipAny ct w' t i k := by
  simp only [SkipAny, silent_shift H, silent2_shift H, sh1 d, sh2 d, sh3 d, Nat.add_right_cancel_iff]

theorem markAt_shift (i : Nat) (m : Tone) (k : Nat) : MarkAt ct w (t + d) (i + d) m (k + d) ↔ MarkAt ct w' t i m k := by
  simp only [MarkAt, H _ _, sh1 d, sh2 d, sh3 d, Nat.add_right_cancel_iff]

omit H in
theorem markAt_ge {i k : Nat} {m : Tone} (h : MarkAt ct w t i m k) : i ≤ k := by
  rcases h with ⟨-, -, -, -, rfl⟩ | ⟨-, -, rfl⟩ <;> omega

theorem ex_mark {i : Nat} {Q : Tone → Nat → Prop} :
    (∃ m k, MarkAt ct w (t + d) (i + d) m k ∧ Q m k) ↔ ∃ m k, MarkAt ct w' t i m k ∧ Q m (k + d) := by
  refine exists_congr fun m => ?_
  rw [ex_shift (d := d) fun k h => Nat.le_trans (Nat.le_add_left d i) (markAt_ge h)]
  simp only [markAt_shift H]

theorem finalAt_shift (i : Nat) (excl : U16Str) (c : Nat) (f : EndConsClass) :
    FinalAt ct w (t + d) (i + d) excl c f ↔ FinalAt ct w' t i excl c f := by
  simp only [FinalAt, H _ _]

theorem closed_shift (i : Nat) (excl : U16Str) (k : Nat) (b : Bool) (f : EndConsClass) :
    Closed ct w (t + d) (i + d) excl (k + d) b f ↔ Closed ct w' t i excl k b f := by
  simp only [Closed, finalAt_shift H, sh1 d, sh2 d, sh3 d, skipAny_shift H]

omit H in
theorem skipAny_ge {i k : Nat} (h : SkipAny ct w t i k) : i ≤ k := by
  rcases h with ⟨-, rfl⟩ | ⟨-, -, rfl⟩ | ⟨-, -, rfl⟩ <;> omega

omit H in
theorem closed_ge {i k : Nat} {excl : U16Str} {b : Bool} {f : EndConsClass} (h : Closed ct w t i excl k b f) : i ≤ k := by
  obtain ⟨c, -, -, h⟩ := h
  have := skipAny_ge h
  omega

omit H in
theorem closedX_ge {i k : Nat} {excl : U16Str} {b : Bool} {f : EndConsClass} (h : ClosedX ct w t i excl k b f) : i ≤ k := by
  obtain ⟨c, -, ⟨-, h⟩ | ⟨-, ⟨-, rfl, -⟩ | ⟨-, rfl, -⟩⟩⟩ := h
  · have := skipAny_ge h
    omega
  · omega
  · omega

theorem silentTail_shift (i c : Nat) : SilentTail ct w (t + d) (i + d) c ↔ SilentTail ct w' t i c := by
  simp only [SilentTail, sh1 d, sh2 d, sh3 d, endOrStart_shift H, H _ _]

theorem links_shift (i c : Nat) : Links ct w (t + d) (i + d) c ↔ Links ct w' t i c := by
  simp only [Links, sh1 d, sh2 d, sh3 d, H _ _, Nat.add_right_cancel_iff]

theorem closedX_shift (i : Nat) (excl : U16Str) (k : Nat) (b : Bool) (f : EndConsClass) :
    ClosedX ct w (t + d) (i + d) excl (k + d) b f ↔ ClosedX ct w' t i excl k b f := by
  simp only [ClosedX, finalAt_shift H, sh1 d, sh2 d, sh3 d, skipAny_shift H, silentTail_shift H, links_shift H, Nat.add_right_cancel_iff]

theorem withRu_shift (i c : Nat) (snd : InitConsSound) (cls : InitConsClass) (o : Onset) :
    WithRu ct w (t + d) (i + d) c snd cls (o.shift d) ↔ WithRu ct w' t i c snd cls o := by
  simp only [WithRu, finalAt_shift H, sh1 d, sh2 d, sh3 d, onset_shift_eq]

theorem ruAt_shift (i : Nat) : RuAt w (t + d) (i + d) ↔ RuAt w' t i := by
  simp only [RuAt, sh1 d, sh2 d, sh3 d, H _ _]

omit H in
theorem twoLetters_shift (i : Nat) (l : Bool) (c : Nat) (snd : InitConsSound) (cls : InitConsClass) (e : Nat)
    (snd2 : InitConsSound) (cls2 : InitConsClass) (o : Onset) :
    TwoLetters (i + d) l c snd cls e snd2 cls2 (o.shift d) ↔ TwoLetters i l c snd cls e snd2 cls2 o := by
  simp only [TwoLetters, sh1 d, sh2 d, sh3 d, onset_shift_eq]

theorem onsetAt_shift {i : Nat} (hi : ∀ c, ct.isCons c = true → (w[i + d]? = some c ↔ w'[i]? = some c)) (l : Bool) (o : Onset) :
    OnsetAt ct w (t + d) (i + d) l (o.shift d) ↔ OnsetAt ct w' t i l o := by
  unfold OnsetAt
  refine exists_congr fun c => exists_congr fun snd => exists_congr fun cls => ?_
  rw [← and_assoc, ← and_assoc]
  refine and_congr ⟨fun h => ⟨(hi c h.2.1).mp h.1, h.2⟩, fun h => ⟨(hi c h.2.1).mpr h.1, h.2⟩⟩ ?_
  simp only [sh1 d, sh2 d, H _ _, twoLetters_shift, ruAt_shift H, withRu_shift H, onset_shift_eq]

theorem wholeAt_shift {i : Nat} (hi : ∀ c, w[i + d]? = some c ↔ w'[i]? = some c) (o : Onset) (r : Rime) :
    WholeAt ct w (t + d) (i + d) (o.shift d) (r.shift d) ↔ WholeAt ct w' t i o r := by
  simp only [WholeAt, hi, sh1 d, sh2 d, sh3 d, H _ _, startAt_shift H, finalAt_shift H, ruAt_shift H, onset_shift_eq, rime_shift_eq]

theorem open_shift (j : Nat) (v : Vowel) (f : EndConsClass) (m : Tone) (r : Rime) :
    Open ct w (t + d) (j + d) v f m (r.shift d) ↔ Open ct w' t j v f m r := by
  simp only [Open, ex_skip H, rime_shift_eq]

theorem shut_shift (j : Nat) (excl : U16Str) (v : Vowel) (m : Tone) (r : Rime) :
    Shut ct w (t + d) (j + d) excl v m (r.shift d) ↔ Shut ct w' t j excl v m r := by
  unfold Shut
  constructor
  · rintro ⟨k, b, f, h1, h2⟩
    obtain ⟨k, rfl⟩ := Nat.exists_eq_add_of_le' (Nat.le_trans (Nat.le_add_left d j) (closed_ge h1))
    exact ⟨k, b, f, (closed_shift H ..).mp h1, rime_shift_eq.mp h2⟩
  · rintro ⟨k, b, f, h1, h2⟩
    exact ⟨k + d, b, f, (closed_shift H ..).mpr h1, rime_shift_eq.mpr h2⟩

theorem shutX_shift (j : Nat) (excl : U16Str) (v : Vowel) (m : Tone) (r : Rime) :
    ShutX ct w (t + d) (j + d) excl v m (r.shift d) ↔ ShutX ct w' t j excl v m r := by
  unfold ShutX
  constructor
  · rintro ⟨k, b, f, h1, h2⟩
    obtain ⟨k, rfl⟩ := Nat.exists_eq_add_of_le' (Nat.le_trans (Nat.le_add_left d j) (closedX_ge h1))
    exact ⟨k, b, f, (closedX_shift H ..).mp h1, rime_shift_eq.mp h2⟩
  · rintro ⟨k, b, f, h1, h2⟩
    exact ⟨k + d, b, f, (closedX_shift H ..).mpr h1, rime_shift_eq.mpr h2⟩

theorem hanRime_shift (j : Nat) (r : Rime) : HanRime ct w (t + d) (j + d) (r.shift d) ↔ HanRime ct w' t j r := by
  simp only [HanRime, sh1 d, sh2 d, sh3 d, H _ _, ex_mark H, open_shift H, shut_shift H, shutX_shift H]

theorem signFinal_shift (k : Nat) (v : Vowel) (m : Tone) (r : Rime) :
    SignFinal ct w (t + d) (k + d) v m (r.shift d) ↔ SignFinal ct w' t k v m r := by
  simp only [SignFinal, sh1 d, sh2 d, sh3 d, H _ _, open_shift H, shut_shift H, shutX_shift H]

theorem signRime_shift (j : Nat) (r : Rime) : SignRime ct w (t + d) (j + d) (r.shift d) ↔ SignRime ct w' t j r := by
  unfold SignRime
  refine exists_congr fun c => exists_congr fun v => exists_congr fun m => ?_
  constructor
  · rintro ⟨k, h1, h2, h3, h4, h5⟩
    rw [sh1 d] at h4
    obtain ⟨k, rfl⟩ := Nat.exists_eq_add_of_le' (Nat.le_trans (Nat.le_add_left d _) (markAt_ge h4))
    simp only [sh2 d, sh3 d, H _ _, signFinal_shift H, silent_shift H, silent2_shift H, rime_shift_eq, markAt_shift H] at h1 h4 h5
    exact ⟨k, h1, h2, h3, h4, h5⟩
  · rintro ⟨k, h1, h2, h3, h4, h5⟩
    refine ⟨k + d, ?_⟩
    simp only [sh1 d, sh2 d, sh3 d, H _ _, signFinal_shift H, silent_shift H, silent2_shift H, rime_shift_eq, markAt_shift H]
    exact ⟨h1, h2, h3, h4, h5⟩

theorem shortORime_shift (j : Nat) (r : Rime) : ShortORime ct w (t + d) (j + d) (r.shift d) ↔ ShortORime ct w' t j r := by
  simp only [ShortORime, sh1 d, sh2 d, sh3 d, H _ _, ex_skip H, shut_shift H]

theorem roRime_shift (o : Onset) (k : Nat) (m : Tone) (r : Rime) :
    RoRime ct w (t + d) (o.shift d) (k + d) m (r.shift d) ↔ RoRime ct w' t o k m r := by
  have ho : (o.shift d).sound = o.sound := rfl
  unfold RoRime
  rw [ho]
  by_cases hr : o.sound = .RA
  · simp only [if_pos hr, exists_eq_left, sh1 d, H _ _, open_shift H, silent_shift H, shutX_shift H]
  · simp only [if_neg hr, sh1 d, H _ _, ex_skip H, open_shift H, silent_shift H, shutX_shift H]

theorem plainRime_shift (o : Onset) (l : Bool) (j : Nat) (r : Rime) :
    PlainRime ct w (t + d) (o.shift d) l (j + d) (r.shift d) ↔ PlainRime ct w' t o l j r := by
  simp only [PlainRime, sh1 d, sh2 d, sh3 d, H _ _, ex_mark H, ex_skip H, open_shift H, shut_shift H, shutX_shift H, roRime_shift H, rime_shift_eq]
  rfl

theorem consRime_shift (o : Onset) (l : Bool) (r : Rime) :
    ConsRime ct w (t + d) (o.shift d) l (r.shift d) ↔ ConsRime ct w' t o l r := by
  unfold ConsRime
  exact or_congr (hanRime_shift H ..) (or_congr (signRime_shift H ..)
    (or_congr (shortORime_shift H ..) (plainRime_shift H ..)))

theorem midRime_shift (sign mid : Nat) (short long : Vowel) (j : Nat) (full : Bool) (r : Rime) :
    MidRime ct w (t + d) sign mid short long (j + d) full (r.shift d) ↔ MidRime ct w' t sign mid short long j full r := by
  simp only [MidRime, sh1 d, sh2 d, sh3 d, H _ _, ex_mark H, ex_skip H, open_shift H, shut_shift H, shutX_shift H]

theorem eRime_shift (o : Onset) (r : Rime) :
    ERime ct w (t + d) (o.shift d) (r.shift d) ↔ ERime ct w' t o r := by
  have hs : (o.shift d).stop = o.stop + d := rfl
  have hp : NotPreA (o.shift d) ↔ NotPreA o := Iff.rfl
  simp only [ERime, hs, hp, sh1 d, sh2 d, sh3 d, H _ _, ex_mark H, ex_skip H, open_shift H, shut_shift H, shutX_shift H, midRime_shift H,
    endOrStart_shift H, rime_shift_eq, Nat.add_le_add_iff_right, Nat.add_lt_add_iff_right, Nat.add_right_cancel_iff, exists_and_left]

theorem aeRime_shift (k : Nat) (m : Tone) (r : Rime) :
    AeRime ct w (t + d) (k + d) m (r.shift d) ↔ AeRime ct w' t k m r := by
  simp only [AeRime, sh1 d, sh2 d, sh3 d, H _ _, ex_skip H, open_shift H, shut_shift H]

theorem oRime_shift (k : Nat) (m : Tone) (r : Rime) :
    ORime ct w (t + d) (k + d) m (r.shift d) ↔ ORime ct w' t k m r := by
  simp only [ORime, sh1 d, sh2 d, sh3 d, H _ _, ex_skipIU H, silent_shift H, silent2_shift H, shutX_shift H, rime_shift_eq]

theorem aiRime_shift (malai : Bool) (k : Nat) (m : Tone) (r : Rime) :
    AiRime ct w (t + d) malai (k + d) m (r.shift d) ↔ AiRime ct w' t malai k m r := by
  simp only [AiRime, sh1 d, sh2 d, sh3 d, H _ _, endOrStart_shift H, open_shift H, rime_shift_eq]

theorem leadRime_shift (v j : Nat) (r : Rime) :
    LeadRime ct w (t + d) v (j + d) (r.shift d) ↔ LeadRime ct w' t v j r := by
  simp only [LeadRime, ex_mark H, aeRime_shift H, oRime_shift H, aiRime_shift H]

theorem ruRime_shift (i : Nat) (r : Rime) : RuRime ct w (t + d) (i + d) (r.shift d) ↔ RuRime ct w' t i r := by
  simp only [RuRime, sh1 d, sh2 d, sh3 d, H _ _, startAt_shift H, shutX_shift H, rime_shift_eq, Nat.add_le_add_iff_right,
    Nat.add_lt_add_iff_right]


theorem spelled_shift {i : Nat} (hi : w[i + d]? = w'[i]?) (hlt : i < t)
    (hi1 : ∀ x, w'[i]? = some x → ct.isLdVowel x = true → x ≠ ch!"เ" → t = i + 1 →
      ∀ c, ct.isCons c = true → (w[i + 1 + d]? = some c ↔ w'[i + 1]? = some c)) (l : Bool) (o : Onset) (r : Rime) :
    Spelled ct w (t + d) (i + d) l (o.shift d) (r.shift d) ↔ Spelled ct w' t i l o r := by
  have h0 : ∀ c, w[i + d]? = some c ↔ w'[i]? = some c := fun c => by rw [hi]
  have h1 : i + 1 < t → ∀ c, ct.isCons c = true → (w[i + 1 + d]? = some c ↔ w'[i + 1]? = some c) := by
    intro h c _
    have := H (i + 1) c
    unfold At at this
    constructor
    · exact fun hw => (this.mp ⟨by omega, hw⟩).2
    · exact fun hw => (this.mpr ⟨by omega, hw⟩).2
  have hs : (o.shift d).stop = o.stop + d := rfl
  have hr : (r.shift d).stop = r.stop + d := rfl
  unfold Spelled
  refine exists_congr fun c => ?_
  rw [h0]
  refine and_congr_right fun hc => ?_
  refine or_congr ?_ (or_congr ?_ (or_congr ?_ ?_))
  · rw [onsetAt_shift H (fun c _ => h0 c), consRime_shift H, wholeAt_shift H h0, hs, hr, Nat.add_lt_add_iff_right,
      Nat.add_lt_add_iff_right]
  · rw [sh1 d, Nat.add_lt_add_iff_right, eRime_shift H]
    refine and_congr_right fun _ => and_congr_right fun h => ?_
    rw [onsetAt_shift H (h1 h)]
  · rw [sh1 d, hs, leadRime_shift H]
    refine and_congr_right fun h2 => and_congr_right fun h3 => ?_
    rw [onsetAt_shift H]
    by_cases h : i + 1 < t
    · exact h1 h
    · exact hi1 c hc h2 h3 (by omega)
  · rw [ruRime_shift H, sh1 d]
    cases o
    simp [Onset.shift]

end

section
variable {ct : CType} {w : U16Str} {t d : Nat}

theorem onsetAt_gt {i : Nat} {l : Bool} {o : Onset} (h : OnsetAt ct w t i l o) : i < o.stop := by
  obtain ⟨c, snd, cls, -, -, rfl | ⟨e, s2, c2, -, -, -, h⟩ | ⟨-, h⟩⟩ := h
  · exact Nat.lt_succ_self i
  · rcases h with ⟨_, _, -, -, -, rfl⟩ | ⟨-, -, -, rfl⟩ | ⟨-, -, rfl⟩ | rfl <;> exact Nat.lt_add_of_pos_right (by decide)
  · rcases h with ⟨-, rfl⟩ | ⟨-, rfl | rfl⟩ | ⟨-, rfl⟩ | ⟨-, rfl⟩ | ⟨-, -, rfl⟩ | ⟨-, v, -, ⟨-, rfl⟩ | rfl⟩ <;>
      exact Nat.lt_add_of_pos_right (by decide)

theorem open_ge {j : Nat} {v : Vowel} {f : EndConsClass} {m : Tone} {r : Rime} (h : Open ct w t j v f m r) : j ≤ r.stop := by
  obtain ⟨k, h, rfl⟩ := h
  exact skip_ge h

theorem shut_ge {j : Nat} {x : U16Str} {v : Vowel} {m : Tone} {r : Rime} (h : Shut ct w t j x v m r) : j ≤ r.stop := by
  obtain ⟨k, b, f, h, rfl⟩ := h
  exact closed_ge h

theorem shutX_ge {j : Nat} {x : U16Str} {v : Vowel} {m : Tone} {r : Rime} (h : ShutX ct w t j x v m r) : j ≤ r.stop := by
  obtain ⟨k, b, f, h, rfl⟩ := h
  exact closedX_ge h

theorem signFinal_ge {j : Nat} {v : Vowel} {m : Tone} {r : Rime} (h : SignFinal ct w t j v m r) : j ≤ r.stop := by
  obtain ⟨-, ⟨-, -, h⟩ | ⟨-, -, h⟩ | ⟨-, -, h⟩ | ⟨-, -, -, h⟩⟩ := h
  · have := open_ge h; omega
  · exact shut_ge h
  · exact shut_ge h
  · exact shutX_ge h

theorem consRime_ge {o : Onset} {l : Bool} {r : Rime} (h : ConsRime ct w t o l r) : o.stop ≤ r.stop := by
  rcases h with h | h | h | h
  · obtain ⟨-, m, k, hm, h⟩ := h
    have := markAt_ge hm
    rcases h with ⟨-, -, h⟩ | ⟨-, -, h⟩ | ⟨-, -, h⟩ | ⟨-, -, h⟩
    · have := open_ge h; omega
    · have := open_ge h; omega
    · have := shutX_ge h; omega
    · have := shut_ge h; omega
  · obtain ⟨c, v, m, k, -, -, -, hm, h⟩ := h
    have := markAt_ge hm
    rcases h with ⟨-, -, h⟩ | ⟨-, ⟨-, rfl | h⟩ | ⟨-, -, rfl⟩ | ⟨-, -, rfl | h⟩⟩
    · have := signFinal_ge h; omega
    · simp only; omega
    · have := signFinal_ge h; omega
    · simp only; omega
    · simp only; omega
    · have := signFinal_ge h; omega
  · obtain ⟨-, -, k, hk, h⟩ := h
    have := skip_ge hk
    have := shut_ge h
    omega
  · obtain ⟨m, k, hm, h⟩ := h
    have := markAt_ge hm
    rcases h with ⟨-, h⟩ | ⟨-, h | ⟨k', hk, h⟩⟩ | ⟨-, h⟩ | ⟨-, h⟩ | ⟨-, h | ⟨k', hk, h⟩⟩ | h | ⟨-, -, -, h⟩ | ⟨v, c, -, -, -, -, rfl | h⟩
    · have := open_ge h; omega
    · have := open_ge h; omega
    · have := skip_ge hk; have := shutX_ge h; omega
    · have := open_ge h; omega
    · have := shut_ge h; omega
    · have := open_ge h; omega
    · have := skip_ge hk; have := shut_ge h; omega
    · obtain ⟨-, ⟨-, h⟩ | ⟨k', hk, -, h⟩⟩ := h
      · have := open_ge h; omega
      · have hk' : k + 1 ≤ k' := by
          split at hk
          · omega
          · exact skip_ge hk
        rcases h with h | ⟨-, h⟩
        · have := open_ge h; omega
        · have := shutX_ge h; omega
    · have := shut_ge h; omega
    · simp only; omega
    · have := shutX_ge h; omega

theorem midRime_ge {sign mid : Nat} {short long : Vowel} {j : Nat} {full : Bool} {r : Rime}
    (h : MidRime ct w t sign mid short long j full r) : j ≤ r.stop := by
  obtain ⟨-, m, k, hm, -, h⟩ := h
  have := markAt_ge hm
  rcases h with ⟨-, h⟩ | ⟨-, h | ⟨k', hk, h⟩⟩
  · have := open_ge h; omega
  · have := open_ge h; omega
  · have := skip_ge hk
    split at h
    · have := shutX_ge h; omega
    · have := shut_ge h; omega

theorem eRime_ge {o : Onset} {r : Rime} (h : ERime ct w t o r) : o.stop ≤ r.stop := by
  rcases h with ⟨-, -, rfl⟩ | ⟨-, m, k, k', hm, hk, h⟩ | h | h | ⟨-, h⟩ | ⟨-, m, k, hm, h⟩
  · exact Nat.le_refl _
  · have := markAt_ge hm; have := skip_ge hk; have := shut_ge h; omega
  · exact midRime_ge h
  · exact midRime_ge h
  · have := shut_ge h; omega
  · have := markAt_ge hm
    rcases h with ⟨-, rfl⟩ | ⟨-, ⟨-, h⟩ | ⟨-, h⟩ | ⟨-, h⟩⟩ | ⟨-, -, h⟩ | ⟨-, ⟨-, h⟩ | ⟨-, h⟩⟩ | ⟨-, -, h⟩ | ⟨c, -, -, -, -, -, h | ⟨k', hk, h⟩⟩
    · exact this
    · have := open_ge h; omega
    · have := open_ge h; omega
    · have := open_ge h; omega
    · have := open_ge h; omega
    · have := open_ge h; omega
    · have := open_ge h; omega
    · have := open_ge h; omega
    · have := open_ge h; omega
    · have := skip_ge hk; have := shutX_ge h; omega

theorem leadRime_ge {v j : Nat} {r : Rime} (h : LeadRime ct w t v j r) : j ≤ r.stop := by
  obtain ⟨m, k, hm, h⟩ := h
  have := markAt_ge hm
  rcases h with ⟨-, h⟩ | ⟨-, h⟩ | ⟨-, h⟩ | ⟨-, h⟩
  · rcases h with ⟨-, h⟩ | ⟨-, h⟩ | ⟨-, -, h | ⟨k', hk, h⟩⟩
    · have := open_ge h; omega
    · have := shut_ge h; omega
    · have := open_ge h; omega
    · have := skip_ge hk; have := shut_ge h; omega
  · rcases h with ⟨-, ⟨-, rfl⟩ | ⟨-, k', hk, rfl⟩⟩ | ⟨-, ⟨-, rfl | h⟩ | ⟨-, -, rfl⟩ | ⟨-, -, rfl | h⟩⟩
    · simp only; omega
    · have := skipIU_ge hk; simp only; omega
    · simp only; omega
    · have := shutX_ge h; omega
    · simp only; omega
    · simp only; omega
    · have := shutX_ge h; omega
  · rcases h with h | ⟨-, -, -, rfl⟩
    · have := open_ge h; omega
    · simp only; omega
  · rcases h with h | ⟨-, -, -, rfl⟩
    · have := open_ge h; omega
    · simp only; omega

theorem ruRime_ge {i : Nat} {r : Rime} (h : RuRime ct w t i r) : i ≤ r.stop := by
  rcases h with ⟨-, rfl⟩ | ⟨-, rfl⟩ | ⟨e, -, -, ⟨-, rfl⟩ | ⟨-, h⟩⟩
  · simp only; omega
  · simp only; omega
  · simp only; omega
  · have := shutX_ge h; omega

theorem wholeAt_ge {i : Nat} {o : Onset} {r : Rime} (h : WholeAt ct w t i o r) : i ≤ o.stop ∧ i ≤ r.stop := by
  obtain ⟨c, snd, cls, -, -, ⟨-, rfl, rfl⟩ | ⟨-, -, -, -, rfl, rfl⟩ | ⟨-, -, -, ⟨-, -, rfl, rfl⟩ | ⟨-, -, rfl, rfl⟩ | ⟨-, -, rfl, rfl⟩⟩ |
    ⟨-, -, rfl, rfl⟩⟩ := h <;> exact ⟨Nat.le_add_right .., Nat.le_add_right ..⟩

/-- A syllable ends after its beginning. -/
theorem spelled_ge {i : Nat} {l : Bool} {o : Onset} {r : Rime} (h : Spelled ct w t i l o r) : i ≤ o.stop ∧ i ≤ r.stop := by
  obtain ⟨c, -, ⟨-, ⟨ho, -, h⟩ | ⟨h, -⟩⟩ | ⟨-, -, ho, h⟩ | ⟨-, -, ho, h⟩ | ⟨-, rfl, h⟩⟩ := h
  · have := onsetAt_gt ho; have := consRime_ge h; omega
  · exact wholeAt_ge h
  · have := onsetAt_gt ho; have := eRime_ge h; omega
  · have := onsetAt_gt ho; have := leadRime_ge h; omega
  · exact ⟨Nat.le_succ i, ruRime_ge h⟩

end
end Thpronun
