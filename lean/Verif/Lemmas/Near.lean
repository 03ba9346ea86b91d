import Verif.Lemmas.Wide
import Verif.Spec.Near
import Verif.Lemmas.Listed
import Verif.Lemmas.Shift

/-! # A syllable depends on four characters after it: helper lemmas -/

namespace Thpronun
open Res Spec

namespace Near

variable {ct : CType} {w w' : U16Str} {t t' N : Nat}

/-- The two tokens agree up to the position `N`. -/
structure Agree (w : U16Str) (t : Nat) (w' : U16Str) (t' N : Nat) : Prop where
  get : ∀ i ≤ N, w[i]? = w'[i]?
  stop : ∀ i ≤ N, i < t ↔ i < t'

theorem Agree.symm (H : Agree w t w' t' N) : Agree w' t' w t N :=
  ⟨fun i hi => (H.get i hi).symm, fun i hi => (H.stop i hi).symm⟩

variable (H : Agree w t w' t' N)
include H

theorem at_ {i : Nat} (hi : i ≤ N) (c : Nat) : At w t i c ↔ At w' t' i c := by
  unfold At
  rw [H.get i hi, H.stop i hi]

theorem startAt {i : Nat} (hi : i ≤ N) : StartAt ct w t i ↔ StartAt ct w' t' i := by
  simp (disch := omega) only [StartAt, at_ H]

theorem le {i : Nat} (hi : i ≤ N) : t ≤ i ↔ t' ≤ i := by
  have := H.stop i hi
  omega

theorem endOrStart {i : Nat} (hi : i ≤ N) : EndOrStart ct w t i ↔ EndOrStart ct w' t' i := by
  simp (disch := omega) only [EndOrStart, startAt H, le H]

theorem silent {i : Nat} (hi : i + 1 ≤ N) : Silent ct w t i ↔ Silent ct w' t' i := by
  simp (disch := omega) only [Silent, at_ H]

theorem silent2 {A : Nat → Prop} {i : Nat} (hi : i + 2 ≤ N) : Silent2 ct w t A i ↔ Silent2 ct w' t' A i := by
  simp (disch := omega) only [Silent2, at_ H]

theorem skip {i : Nat} (hi : i + 1 ≤ N) (k : Nat) : Skip ct w t i k ↔ Skip ct w' t' i k := by
  simp (disch := omega) only [Skip, silent H]

theorem skipIU {i : Nat} (hi : i + 2 ≤ N) (k : Nat) : SkipIU ct w t i k ↔ SkipIU ct w' t' i k := by
  simp (disch := omega) only [SkipIU, silent2 H]

theorem skipAny {i : Nat} (hi : i + 2 ≤ N) (k : Nat) : SkipAny ct w t i k ↔ SkipAny ct w' t' i k := by
  simp (disch := omega) only [SkipAny, silent H, silent2 H]

theorem markAt {i : Nat} (hi : i ≤ N) (m : Tone) (k : Nat) : MarkAt ct w t i m k ↔ MarkAt ct w' t' i m k := by
  simp (disch := omega) only [MarkAt, at_ H]

theorem ex_skip {i : Nat} (hi : i + 1 ≤ N) {Q Q' : Nat → Prop} (h : ∀ k, k ≤ i + 2 → (Q k ↔ Q' k)) :
    (∃ k, Skip ct w t i k ∧ Q k) ↔ ∃ k, Skip ct w' t' i k ∧ Q' k := by
  refine exists_congr fun k => ?_
  rw [skip H hi]
  exact and_congr_right fun hk => h k (Wide.skip_le hk)

theorem ex_skipIU {i : Nat} (hi : i + 2 ≤ N) {Q Q' : Nat → Prop} (h : ∀ k, k ≤ i + 3 → (Q k ↔ Q' k)) :
    (∃ k, SkipIU ct w t i k ∧ Q k) ↔ ∃ k, SkipIU ct w' t' i k ∧ Q' k := by
  refine exists_congr fun k => ?_
  rw [skipIU H hi]
  exact and_congr_right fun hk => h k (Wide.skipIU_le hk)

theorem ex_mark {i : Nat} (hi : i ≤ N) {Q Q' : Tone → Nat → Prop} (h : ∀ m k, k ≤ i + 1 → (Q m k ↔ Q' m k)) :
    (∃ m k, MarkAt ct w t i m k ∧ Q m k) ↔ ∃ m k, MarkAt ct w' t' i m k ∧ Q' m k := by
  refine exists_congr fun m => exists_congr fun k => ?_
  rw [markAt H hi]
  exact and_congr_right fun hk => h m k (Wide.markAt_le hk)

theorem finalAt {i : Nat} (hi : i ≤ N) (excl : U16Str) (c : Nat) (f : EndConsClass) :
    FinalAt ct w t i excl c f ↔ FinalAt ct w' t' i excl c f := by
  simp (disch := omega) only [FinalAt, at_ H]

theorem silentTail {i : Nat} (hi : i + 2 ≤ N) (c : Nat) : SilentTail ct w t i c ↔ SilentTail ct w' t' i c := by
  simp (disch := omega) only [SilentTail, at_ H, endOrStart H]

theorem links {i : Nat} (hi : i + 2 ≤ N) (c : Nat) : Links ct w t i c ↔ Links ct w' t' i c := by
  unfold Links
  refine or_congr (by simp (disch := omega) only [at_ H]) (exists_congr fun d => ?_)
  rw [at_ H (by omega)]
  refine and_congr_right fun hd => ?_
  have h1 := H.stop (i + 1) (by omega)
  have h2 := H.stop (i + 2) hi
  have h3 := hd.1
  have : i + 2 = t ↔ i + 2 = t' := by omega
  rw [this]

theorem closed {i : Nat} (hi : i + 3 ≤ N) (excl : U16Str) (k : Nat) (b : Bool) (f : EndConsClass) :
    Closed ct w t i excl k b f ↔ Closed ct w' t' i excl k b f := by
  simp (disch := omega) only [Closed, finalAt H, skipAny H]

theorem closedX {i : Nat} (hi : i + 3 ≤ N) (excl : U16Str) (k : Nat) (b : Bool) (f : EndConsClass) :
    ClosedX ct w t i excl k b f ↔ ClosedX ct w' t' i excl k b f := by
  simp (disch := omega) only [ClosedX, finalAt H, skipAny H, silentTail H, links H]

theorem withRu {i : Nat} (hi : i + 2 ≤ N) (c : Nat) (snd : InitConsSound) (cls : InitConsClass) (o : Onset) :
    WithRu ct w t i c snd cls o ↔ WithRu ct w' t' i c snd cls o := by
  simp (disch := omega) only [WithRu, finalAt H]

theorem ruAt {i : Nat} (hi : i + 2 ≤ N) : RuAt w t i ↔ RuAt w' t' i := by
  simp (disch := omega) only [RuAt, at_ H]

theorem onsetAt {i : Nat} (hi : i + 2 ≤ N) (l : Bool) (o : Onset) : OnsetAt ct w t i l o ↔ OnsetAt ct w' t' i l o := by
  simp (disch := omega) only [OnsetAt, H.get, at_ H, ruAt H, withRu H]

theorem wholeAt {i : Nat} (hi : i + 2 ≤ N) (o : Onset) (r : Rime) : WholeAt ct w t i o r ↔ WholeAt ct w' t' i o r := by
  simp (disch := omega) only [WholeAt, H.get, at_ H, ruAt H, startAt H, finalAt H]

theorem open_ {j : Nat} {v : Vowel} {f : EndConsClass} {m : Tone} {r : Rime} (h : Open ct w t j v f m r) (hN : r.stop + 3 ≤ N) :
    Open ct w' t' j v f m r ∧ j ≤ r.stop := by
  obtain ⟨k, hk, rfl⟩ := h
  have := skip_ge hk
  simp only at hN
  exact ⟨⟨k, (skip H (by omega) k).mp hk, rfl⟩, this⟩

theorem shut {j : Nat} {excl : U16Str} {v : Vowel} {m : Tone} {r : Rime} (h : Shut ct w t j excl v m r) (hN : r.stop + 3 ≤ N) :
    Shut ct w' t' j excl v m r ∧ j < r.stop := by
  obtain ⟨k, b, f, ⟨c, h1, h2, h3⟩, rfl⟩ := h
  have := skipAny_ge h3
  simp only at hN
  exact ⟨⟨k, b, f, ⟨c, (finalAt H (by omega) ..).mp h1, h2, (skipAny H (by omega) k).mp h3⟩, rfl⟩, this⟩

theorem shutX {j : Nat} {excl : U16Str} {v : Vowel} {m : Tone} {r : Rime} (h : ShutX ct w t j excl v m r) (hN : r.stop + 3 ≤ N) :
    ShutX ct w' t' j excl v m r ∧ j ≤ r.stop := by
  obtain ⟨k, b, f, h, rfl⟩ := h
  have := closedX_ge h
  simp only at hN
  exact ⟨⟨k, b, f, (closedX H (by omega) ..).mp h, rfl⟩, this⟩

theorem nat_ {i c : Nat} (hi : i ≤ N) (h : ¬ At w t i c) : ¬ At w' t' i c := fun h' => h ((at_ H hi c).mpr h')

theorem hanRime {j : Nat} {r : Rime} (h : HanRime ct w t j r) (hN : r.stop + 3 ≤ N) : HanRime ct w' t' j r := by
  obtain ⟨h0, m, k, hm, h⟩ := h
  have := markAt_ge hm
  rcases h with ⟨a, b, h⟩ | ⟨a, b, h⟩ | ⟨a, b, h⟩ | ⟨a, b, h⟩
  · obtain ⟨g, hg⟩ := open_ H h hN
    exact ⟨(at_ H (by omega) _).mp h0, m, k, (markAt H (by omega) ..).mp hm,
      .inl ⟨(at_ H (by omega) _).mp a, (at_ H (by omega) _).mp b, g⟩⟩
  · obtain ⟨g, hg⟩ := open_ H h hN
    exact ⟨(at_ H (by omega) _).mp h0, m, k, (markAt H (by omega) ..).mp hm,
      .inr (.inl ⟨(at_ H (by omega) _).mp a, nat_ H (by omega) b, g⟩)⟩
  · obtain ⟨g, hg⟩ := shutX H h hN
    exact ⟨(at_ H (by omega) _).mp h0, m, k, (markAt H (by omega) ..).mp hm,
      .inr (.inr (.inl ⟨nat_ H (by omega) a, b, g⟩))⟩
  · obtain ⟨g, hg⟩ := shut H h hN
    exact ⟨(at_ H (by omega) _).mp h0, m, k, (markAt H (by omega) ..).mp hm,
      .inr (.inr (.inr ⟨nat_ H (by omega) a, b, g⟩))⟩

theorem signFinal {k : Nat} {v : Vowel} {m : Tone} {r : Rime} (h : SignFinal ct w t k v m r) (hN : r.stop + 3 ≤ N) :
    SignFinal ct w' t' k v m r ∧ k ≤ r.stop := by
  obtain ⟨h0, h⟩ := h
  have h0' : k ≤ N → ∀ c, At w' t' k c → ct.isLdVowel c = false := fun hk c hc => h0 c ((at_ H hk c).mpr hc)
  rcases h with ⟨a, b, h⟩ | ⟨a, b, h⟩ | ⟨a, b, h⟩ | ⟨a, b, c, h⟩
  · obtain ⟨g, hg⟩ := open_ H h hN
    exact ⟨⟨h0' (by omega), .inl ⟨a, (at_ H (by omega) _).mp b, g⟩⟩, by omega⟩
  · obtain ⟨g, hg⟩ := shut H h hN
    exact ⟨⟨h0' (by omega), .inr (.inl ⟨a, nat_ H (by omega) b, g⟩)⟩, by omega⟩
  · obtain ⟨g, hg⟩ := shut H h hN
    exact ⟨⟨h0' (by omega), .inr (.inr (.inl ⟨a, b, g⟩))⟩, by omega⟩
  · obtain ⟨g, hg⟩ := shutX H h hN
    exact ⟨⟨h0' (by omega), .inr (.inr (.inr ⟨a, b, c, g⟩))⟩, by omega⟩

theorem signRime {j : Nat} {r : Rime} (h : SignRime ct w t j r) (hN : r.stop + 3 ≤ N) : SignRime ct w' t' j r := by
  obtain ⟨c, v, m, k, h0, h1, h2, hm, h⟩ := h
  have := markAt_ge hm
  have hk : k ≤ r.stop := by
    rcases h with ⟨-, -, h⟩ | ⟨-, ⟨-, rfl | h⟩ | ⟨-, -, rfl⟩ | ⟨-, -, rfl | h⟩⟩
    · exact (signFinal H h hN).2
    · simp only; omega
    · have := (signFinal H h hN).2; omega
    · simp only; omega
    · exact Nat.le_refl _
    · exact (signFinal H h hN).2
  have e : (∃ c, At w t k c ∧ ct.isLdVowel c = false) ↔ ∃ c, At w' t' k c ∧ ct.isLdVowel c = false := by
    simp (disch := omega) only [at_ H]
  refine ⟨c, v, m, k, (at_ H (by omega) _).mp h0, h1, h2, (markAt H (by omega) ..).mp hm, ?_⟩
  rw [← e, ← silent H (by omega), ← silent2 H (by omega)]
  exact h.imp (fun h => ⟨h.1, h.2.1, (signFinal H h.2.2 hN).1⟩) fun h => ⟨h.1, h.2.imp
    (fun h => ⟨h.1, h.2.imp_right fun h => (signFinal H h hN).1⟩) fun h => h.imp_right
    fun h => ⟨h.1, h.2.1, h.2.2.imp_right fun h => (signFinal H h hN).1⟩⟩

theorem shortORime {j : Nat} {r : Rime} (h : ShortORime ct w t j r) (hN : r.stop + 3 ≤ N) : ShortORime ct w' t' j r := by
  obtain ⟨h0, h1, k, hk, h⟩ := h
  obtain ⟨g, hg⟩ := shut H h hN
  have := skip_ge hk
  exact ⟨(at_ H (by omega) _).mp h0, (at_ H (by omega) _).mp h1, k, (skip H (by omega) k).mp hk, g⟩

theorem roRime {k : Nat} {o : Onset} {m : Tone} {r : Rime} (h : RoRime ct w t o k m r) (hN : r.stop + 3 ≤ N) :
    RoRime ct w' t' o k m r ∧ k ≤ r.stop := by
  obtain ⟨h0, ⟨a, h⟩ | ⟨k', hk, a, h⟩⟩ := h
  · obtain ⟨g, hg⟩ := open_ H h hN
    exact ⟨⟨(at_ H (by omega) _).mp h0, .inl ⟨a, g⟩⟩, by omega⟩
  · have hkk : k < k' := by
      split at hk
      · omega
      · exact skip_ge hk
    have hr : k' < r.stop := by
      rcases h with h | ⟨-, h⟩
      · have := (open_ H h hN).2; omega
      · have := (shutX H h hN).2; omega
    refine ⟨⟨(at_ H (by omega) _).mp h0, .inr ⟨k', ?_, (at_ H (by omega) _).mp a, h.imp (fun h => (open_ H h hN).1) fun h =>
      ⟨fun h' => h.1 ((silent H (by omega)).mpr h'), (shutX H h.2 hN).1⟩⟩⟩, by omega⟩
    rw [← skip H (by omega)]
    exact hk

theorem plainRime {j : Nat} {o : Onset} {l : Bool} {r : Rime} (h : PlainRime ct w t o l j r) (hN : r.stop + 3 ≤ N) :
    PlainRime ct w' t' o l j r := by
  obtain ⟨m, k, hm, h⟩ := h
  have := markAt_ge hm
  have close : k ≤ r.stop → MarkAt ct w' t' j m k := fun hk => (markAt H (by omega) ..).mp hm
  rcases h with ⟨a, h⟩ | ⟨a, h | ⟨k', hk, h⟩⟩ | ⟨a, h⟩ | ⟨a, h⟩ | ⟨a, h | ⟨k', hk, h⟩⟩ | h | ⟨a, b, c, h⟩ | ⟨v, c, a, b, d, e, rfl | h⟩
  · obtain ⟨g, hg⟩ := open_ H h hN
    exact ⟨m, k, close (by omega), .inl ⟨(at_ H (by omega) _).mp a, g⟩⟩
  · obtain ⟨g, hg⟩ := open_ H h hN
    exact ⟨m, k, close (by omega), .inr (.inl ⟨(at_ H (by omega) _).mp a, .inl g⟩)⟩
  · obtain ⟨g, hg⟩ := shutX H h hN
    have := skip_ge hk
    exact ⟨m, k, close (by omega), .inr (.inl ⟨(at_ H (by omega) _).mp a, .inr ⟨k', (skip H (by omega) k').mp hk, g⟩⟩)⟩
  · obtain ⟨g, hg⟩ := open_ H h hN
    exact ⟨m, k, close (by omega), .inr (.inr (.inl ⟨(at_ H (by omega) _).mp a, g⟩))⟩
  · obtain ⟨g, hg⟩ := shut H h hN
    exact ⟨m, k, close (by omega), .inr (.inr (.inr (.inl ⟨(at_ H (by omega) _).mp a, g⟩)))⟩
  · obtain ⟨g, hg⟩ := open_ H h hN
    exact ⟨m, k, close (by omega), .inr (.inr (.inr (.inr (.inl ⟨(at_ H (by omega) _).mp a, .inl g⟩))))⟩
  · obtain ⟨g, hg⟩ := shut H h hN
    have := skip_ge hk
    exact ⟨m, k, close (by omega), .inr (.inr (.inr (.inr (.inl
      ⟨(at_ H (by omega) _).mp a, .inr ⟨k', (skip H (by omega) k').mp hk, g⟩⟩))))⟩
  · obtain ⟨g, hg⟩ := roRime H h hN
    exact ⟨m, k, close hg, .inr (.inr (.inr (.inr (.inr (.inl g)))))⟩
  · obtain ⟨g, hg⟩ := shut H h hN
    exact ⟨m, k, close (by omega), .inr (.inr (.inr (.inr (.inr (.inr (.inl ⟨a, b, c, g⟩))))))⟩
  · simp only at hN close
    exact ⟨m, k, close (Nat.le_refl _), .inr (.inr (.inr (.inr (.inr (.inr (.inr
      ⟨v, c, a, (at_ H (by omega) _).mp b, d, e, .inl rfl⟩))))))⟩
  · obtain ⟨g, hg⟩ := shutX H h hN
    exact ⟨m, k, close hg, .inr (.inr (.inr (.inr (.inr (.inr (.inr
      ⟨v, c, a, (at_ H (by omega) _).mp b, d, e, .inr g⟩))))))⟩

theorem consRime {o : Onset} {l : Bool} {r : Rime} (h : ConsRime ct w t o l r) (hN : r.stop + 3 ≤ N) :
    ConsRime ct w' t' o l r := by
  rcases h with h | h | h | h
  · exact .inl (hanRime H h hN)
  · exact .inr (.inl (signRime H h hN))
  · exact .inr (.inr (.inl (shortORime H h hN)))
  · exact .inr (.inr (.inr (plainRime H h hN)))

theorem midRime {j : Nat} {sign mid : Nat} {short long : Vowel} {full : Bool} {r : Rime}
    (h : MidRime ct w t sign mid short long j full r) (hN : r.stop + 3 ≤ N) : MidRime ct w' t' sign mid short long j full r := by
  obtain ⟨h0, m, k, hm, h1, h⟩ := h
  have := markAt_ge hm
  rcases h with ⟨a, h⟩ | ⟨a, h | ⟨k', hk, h⟩⟩
  · obtain ⟨g, hg⟩ := open_ H h hN
    exact ⟨(at_ H (by omega) _).mp h0, m, k, (markAt H (by omega) ..).mp hm, (at_ H (by omega) _).mp h1,
      .inl ⟨(at_ H (by omega) _).mp a, g⟩⟩
  · obtain ⟨g, hg⟩ := open_ H h hN
    exact ⟨(at_ H (by omega) _).mp h0, m, k, (markAt H (by omega) ..).mp hm, (at_ H (by omega) _).mp h1,
      .inr ⟨nat_ H (by omega) a, .inl g⟩⟩
  · have := skip_ge hk
    have hg : (if full then ShutX ct w' t' k' [] long m r else Shut ct w' t' k' [] long m r) ∧ k' ≤ r.stop := by
      split at h
      · rename_i hf; rw [if_pos hf]; exact shutX H h hN
      · rename_i hf; rw [if_neg hf]; exact ⟨(shut H h hN).1, (shut H h hN).2.le⟩
    have := hg.2
    exact ⟨(at_ H (by omega) _).mp h0, m, k, (markAt H (by omega) ..).mp hm, (at_ H (by omega) _).mp h1,
      .inr ⟨nat_ H (by omega) a, .inr ⟨k', (skip H (by omega) k').mp hk, hg.1⟩⟩⟩

theorem eRime {o : Onset} {r : Rime} (h : ERime ct w t o r) (hN : r.stop + 3 ≤ N) : ERime ct w' t' o r ∧ o.stop ≤ r.stop := by
  rcases h with ⟨a, b, rfl⟩ | ⟨a, m, k, k', hm, hk, h⟩ | h | h | ⟨a, h⟩ | ⟨a, m, k, hm, h⟩
  · simp only at hN
    exact ⟨.inl ⟨(le H (by omega)).mp a, b, rfl⟩, Nat.le_refl _⟩
  · obtain ⟨g, hg⟩ := shut H h hN
    have := skip_ge hk
    have := markAt_ge hm
    exact ⟨.inr (.inl ⟨(at_ H (by omega) _).mp a, m, k, k', (markAt H (by omega) ..).mp hm, (skip H (by omega) k').mp hk, g⟩),
      by omega⟩
  · refine ⟨.inr (.inr (.inl (midRime H h hN))), ?_⟩
    exact (midRime_ge h)
  · refine ⟨.inr (.inr (.inr (.inl (midRime H h hN)))), ?_⟩
    exact (midRime_ge h)
  · obtain ⟨g, hg⟩ := shut H h hN
    exact ⟨.inr (.inr (.inr (.inr (.inl ⟨(at_ H (by omega) _).mp a, g⟩)))), by omega⟩
  · have hjk := markAt_ge hm
    have hk : k ≤ r.stop := by
      rcases h with ⟨-, rfl⟩ | ⟨-, ⟨-, h⟩ | ⟨-, h⟩ | ⟨-, h⟩⟩ | ⟨-, -, h⟩ | ⟨-, ⟨-, h⟩ | ⟨-, h⟩⟩ | ⟨-, -, h⟩ | ⟨c, -, -, -, -, -, h | ⟨k', hk, h⟩⟩
      · exact Nat.le_refl _
      · exact (open_ H h hN).2
      · have := (open_ H h hN).2; omega
      · have := (open_ H h hN).2; omega
      · have := (open_ H h hN).2; omega
      · have := (open_ H h hN).2; omega
      · have := (open_ H h hN).2; omega
      · have := (open_ H h hN).2; omega
      · exact (open_ H h hN).2
      · have := skip_ge hk; have := (shutX H h hN).2; omega
    refine ⟨.inr (.inr (.inr (.inr (.inr ⟨(H.stop _ (by omega)).mp a, m, k, (markAt H (by omega) ..).mp hm, ?_⟩)))), by omega⟩
    rw [← le H (by omega : k ≤ N), ← at_ H (by omega : k ≤ N), ← at_ H (by omega : k ≤ N), ← at_ H (by omega : k ≤ N),
      ← at_ H (by omega : k ≤ N), ← at_ H (by omega : k + 1 ≤ N), ← endOrStart H (by omega : k + 1 ≤ N)]
    rcases h with h | ⟨a, ⟨b, h⟩ | ⟨b, h⟩ | ⟨b, h⟩⟩ | ⟨a, b, h⟩ | ⟨a, ⟨b, h⟩ | ⟨b, h⟩⟩ | ⟨a, b, h⟩ | ⟨c, a, b, d, e, f, h⟩
    · exact .inl h
    · exact .inr (.inl ⟨a, .inl ⟨b, (open_ H h hN).1⟩⟩)
    · exact .inr (.inl ⟨a, .inr (.inl ⟨b, (open_ H h hN).1⟩)⟩)
    · exact .inr (.inl ⟨a, .inr (.inr ⟨b, (open_ H h hN).1⟩)⟩)
    · exact .inr (.inr (.inl ⟨a, b, (open_ H h hN).1⟩))
    · exact .inr (.inr (.inr (.inl ⟨a, .inl ⟨b, (open_ H h hN).1⟩⟩)))
    · exact .inr (.inr (.inr (.inl ⟨a, .inr ⟨b, (open_ H h hN).1⟩⟩)))
    · exact .inr (.inr (.inr (.inr (.inl ⟨a, b, (open_ H h hN).1⟩))))
    · refine .inr (.inr (.inr (.inr (.inr ⟨c, (at_ H (by omega) _).mp a, b, d, e, f, ?_⟩))))
      rcases h with h | ⟨k', hk', h⟩
      · exact .inl (open_ H h hN).1
      · have := skip_ge hk'
        have := (shutX H h hN).2
        exact .inr ⟨k', (skip H (by omega) k').mp hk', (shutX H h hN).1⟩

theorem aiKey {k : Nat} {b : Bool} {m : Tone} {r : Rime} (h : AiRime ct w t b k m r) (hN : r.stop + 3 ≤ N) :
    AiRime ct w' t' b k m r ∧ k ≤ r.stop := by
  rcases h with h | ⟨a, b, c, rfl⟩
  · exact ⟨.inl (open_ H h hN).1, (open_ H h hN).2⟩
  · simp only at hN
    exact ⟨.inr ⟨a, (at_ H (by omega) _).mp b, (endOrStart H (by omega)).mp c, rfl⟩, by simp only; omega⟩

theorem leadRime {j v : Nat} {r : Rime} (h : LeadRime ct w t v j r) (hN : r.stop + 3 ≤ N) :
    LeadRime ct w' t' v j r ∧ j ≤ r.stop := by
  obtain ⟨m, k, hm, h⟩ := h
  have hjk := markAt_ge hm
  have close : k ≤ r.stop → MarkAt ct w' t' j m k := fun hk => (markAt H (by omega) ..).mp hm
  rcases h with ⟨hv, h⟩ | ⟨hv, h⟩ | ⟨hv, h⟩ | ⟨hv, h⟩
  · have key : AeRime ct w' t' k m r ∧ k ≤ r.stop := by
      rcases h with ⟨a, h⟩ | ⟨a, h⟩ | ⟨a, b, h | ⟨k', hk, h⟩⟩
      · obtain ⟨g, hg⟩ := open_ H h hN
        exact ⟨.inl ⟨(at_ H (by omega) _).mp a, g⟩, by omega⟩
      · obtain ⟨g, hg⟩ := shut H h hN
        exact ⟨.inr (.inl ⟨(at_ H (by omega) _).mp a, g⟩), by omega⟩
      · obtain ⟨g, hg⟩ := open_ H h hN
        exact ⟨.inr (.inr ⟨nat_ H (by omega) a, nat_ H (by omega) b, .inl g⟩), by omega⟩
      · obtain ⟨g, hg⟩ := shut H h hN
        have := skip_ge hk
        exact ⟨.inr (.inr ⟨nat_ H (by omega) a, nat_ H (by omega) b, .inr ⟨k', (skip H (by omega) k').mp hk, g⟩⟩), by omega⟩
    exact ⟨⟨m, k, close key.2, .inl ⟨hv, key.1⟩⟩, hjk.trans key.2⟩
  · have hk : k ≤ r.stop := by
      rcases h with ⟨-, ⟨-, rfl⟩ | ⟨-, k', hk, rfl⟩⟩ | ⟨-, ⟨-, rfl | h⟩ | ⟨-, -, rfl⟩ | ⟨-, -, rfl | h⟩⟩
      · simp only; omega
      · have := skipIU_ge hk; simp only; omega
      · simp only; omega
      · have := (shutX H h hN).2; omega
      · simp only; omega
      · exact Nat.le_refl _
      · exact (shutX H h hN).2
    refine ⟨⟨m, k, close hk, .inr (.inl ⟨hv, ?_⟩)⟩, hjk.trans hk⟩
    unfold ORime at h ⊢
    rw [← at_ H (by omega : k ≤ N), ← silent H (by omega : k + 1 ≤ N), ← silent H (by omega : k + 1 + 1 ≤ N),
      ← silent2 H (by omega : k + 2 ≤ N)]
    rcases h with ⟨a, h | ⟨b, k', hk', h⟩⟩ | ⟨a, ⟨b, h⟩ | h | ⟨b, c, h⟩⟩
    · exact .inl ⟨a, .inl h⟩
    · exact .inl ⟨a, .inr ⟨b, k', (skipIU H (by omega) k').mp hk', h⟩⟩
    · exact .inr ⟨a, .inl ⟨b, h.imp_right fun h => (shutX H h hN).1⟩⟩
    · exact .inr ⟨a, .inr (.inl h)⟩
    · exact .inr ⟨a, .inr (.inr ⟨b, c, h.imp_right fun h => (shutX H h hN).1⟩)⟩
  · have key : AiRime ct w' t' true k m r ∧ k ≤ r.stop := aiKey H h hN
    exact ⟨⟨m, k, close key.2, .inr (.inr (.inl ⟨hv, key.1⟩))⟩, hjk.trans key.2⟩
  · have key : AiRime ct w' t' false k m r ∧ k ≤ r.stop := aiKey H h hN
    exact ⟨⟨m, k, close key.2, .inr (.inr (.inr ⟨hv, key.1⟩))⟩, hjk.trans key.2⟩

theorem ruRime {i : Nat} {r : Rime} (h : RuRime ct w t i r) (hN : r.stop + 3 ≤ N) : RuRime ct w' t' i r ∧ i < r.stop := by
  have hi : i < r.stop := by
    rcases h with ⟨-, rfl⟩ | ⟨-, rfl⟩ | ⟨d, -, -, ⟨-, rfl⟩ | ⟨-, h⟩⟩
    · simp only; omega
    · simp only; omega
    · simp only; omega
    · exact (shutX H h hN).2
  refine ⟨?_, hi⟩
  unfold RuRime at h ⊢
  rw [← le H (by omega : i + 1 ≤ N), ← at_ H (by omega : i + 1 ≤ N), ← at_ H (by omega : i + 1 ≤ N),
    ← H.stop (i + 2) (by omega), ← startAt H (by omega : i + 2 ≤ N)]
  refine h.imp_right fun h => h.imp_right ?_
  rintro ⟨d, a, b, h⟩
  exact ⟨d, (at_ H (by omega) _).mp a, b, h.imp_right fun h => ⟨h.1, (shutX H h.2 hN).1⟩⟩

/-- A syllable depends on the text up to three characters behind its end. -/
theorem spelled {i : Nat} {l : Bool} {o : Onset} {r : Rime} (h : Spelled ct w t i l o r) (hN : r.stop + 3 ≤ N) :
    Spelled ct w' t' i l o r ∧ i < r.stop := by
  obtain ⟨c, h0, ⟨hc, ⟨h1, h2, h3⟩ | ⟨h1, h2⟩⟩ | ⟨hc, h1, h2, h3⟩ | ⟨hc, hc', h1, h2⟩ | ⟨hc, ho, h1⟩⟩ := h
  · have g1 := onsetAt_gt h1
    have g2 := consRime_ge h3
    exact ⟨⟨c, by rw [← H.get i (by omega)]; exact h0, .inl ⟨hc, .inl ⟨(onsetAt H (by omega) l o).mp h1,
      (H.stop _ (by omega)).mp h2, consRime H h3 hN⟩⟩⟩, by omega⟩
  · have g1 : i + 1 ≤ r.stop := by
      obtain ⟨c, snd, cls, -, -, h⟩ := h1
      rcases h with ⟨-, -, rfl⟩ | ⟨-, -, -, -, -, rfl⟩ | ⟨-, -, -, ⟨-, -, -, rfl⟩ | ⟨-, -, -, rfl⟩ | ⟨-, -, -, rfl⟩⟩ | ⟨-, -, -, rfl⟩
      all_goals simp only; omega
    exact ⟨⟨c, by rw [← H.get i (by omega)]; exact h0, .inl ⟨hc, .inr ⟨(wholeAt H (by omega) o r).mp h1,
      (H.stop _ (by omega)).mp h2⟩⟩⟩, by omega⟩
  · obtain ⟨g3, g2⟩ := eRime H h3 hN
    have g1 := onsetAt_gt h2
    exact ⟨⟨c, by rw [← H.get i (by omega)]; exact h0, .inr (.inl ⟨hc, (H.stop _ (by omega)).mp h1,
      (onsetAt H (by omega) l o).mp h2, g3⟩)⟩, by omega⟩
  · obtain ⟨g3, g2⟩ := leadRime H h2 hN
    have g1 := onsetAt_gt h1
    exact ⟨⟨c, by rw [← H.get i (by omega)]; exact h0, .inr (.inr (.inl ⟨hc, hc',
      (onsetAt H (by omega) l o).mp h1, g3⟩))⟩, by omega⟩
  · obtain ⟨g1, g2⟩ := ruRime H h1 hN
    exact ⟨⟨c, by rw [← H.get i (by omega)]; exact h0, .inr (.inr (.inr ⟨hc, ho, g1⟩))⟩, g2⟩

end Near

/-! ## Steps of a reading -/

namespace Near

variable {ct : CType} {w w' : U16Str} {look : List Nat → Option Str} {brk brk' : List Int} {n N : Nat}

theorem symm (S : SameStart w w' brk brk' n) : SameStart w' w brk' brk n :=
  ⟨S.text.symm, S.long', S.long, S.inside', S.inside, fun p b h1 h2 => (S.breaks p b h1 h2).symm⟩

theorem get (S : SameStart w w' brk brk' n) {i : Nat} (hi : i < n) : w[i]? = w'[i]? := by
  rw [← List.getElem?_take_of_lt hi, S.text, List.getElem?_take_of_lt hi]

theorem textAt (S : SameStart w w' brk brk' n) {i : Nat} (hi : i < n) : TextAt ct w i ↔ TextAt ct w' i := by
  unfold TextAt
  rw [get S hi]

theorem piece_eq (S : SameStart w w' brk brk' n) {p q : Nat} (hq : q ≤ n) : piece w p q = piece w' p q := by
  have : ∀ v : U16Str, piece v p q = piece (v.take n) p q := fun v => by
    unfold piece
    rw [List.drop_take, List.take_take, Nat.min_eq_left (by omega)]
  rw [this, S.text, ← this]

/-- The token at `p` of the other text; up to `n` the tokens are the same. -/
theorem token (S : SameStart w w' brk brk' n) {p t : Nat} (hpn : p < n) (h : TokenTo ct w brk p t) :
    ∃ t', TokenTo ct w' brk' p t' ∧ (t' = t ∨ n ≤ t ∧ n ≤ t') := by
  classical
  obtain ⟨h1, h2, h3, h4, h5⟩ := h
  have hlong := S.long'
  have hp : p < w'.length := by omega
  have hgt := nextBreak_gt (brk := brk') hp
  have hle := nextBreak_le (p := p) S.inside'
  obtain ⟨e, he⟩ := Int.eq_ofNat_of_zero_le (show 0 ≤ nextBreak w' brk' p by omega)
  rw [he] at hgt hle
  by_cases ht : t < n
  · refine ⟨t, ⟨h1, by omega, fun i a b => (textAt S (by omega)).mp (h3 i a b), ?_, ?_⟩, .inl rfl⟩
    · by_contra hn
      have : e < n := by omega
      have := (S.breaks p e (by omega) this).mpr he.symm
      omega
    · rcases h5 with h5 | ⟨-, h5⟩
      · exact .inl ((S.breaks p t h1 ht).mp h5)
      · exact .inr ⟨by omega, fun h => h5 ((textAt S ht).mpr h)⟩
  · have hne : n ≤ e := by
      by_contra hn
      have := (S.breaks p e (by omega) (by omega)).mpr he.symm
      omega
    have hex : ∃ m, n ≤ m ∧ (m = e ∨ ¬ TextAt ct w' m) := ⟨e, hne, .inl rfl⟩
    obtain ⟨g1, g2⟩ := Nat.find_spec hex
    have gmin := fun {m} => Nat.find_min (H := hex) (m := m)
    generalize Nat.find hex = t' at g1 g2 gmin
    have hte : t' ≤ e := by
      by_contra hn
      exact gmin (m := e) (by omega) ⟨hne, .inl rfl⟩
    refine ⟨t', ⟨by omega, by omega, fun i a b => ?_, by rw [he]; omega, ?_⟩, .inr ⟨by omega, g1⟩⟩
    · by_cases hi : i < n
      · exact (textAt S hi).mp (h3 i a (by omega))
      · by_contra hc
        exact gmin b ⟨by omega, .inr hc⟩
    · rcases g2 with g2 | g2
      · exact .inl (by rw [he, g2])
      · by_cases hq : t' = e
        · exact .inl (by rw [he, hq])
        · exact .inr ⟨by omega, g2⟩

/-- The tokens agree up to before `n`. -/
theorem agree (S : SameStart w w' brk brk' n) {t t' : Nat} (h : t' = t ∨ n ≤ t ∧ n ≤ t') (hn : 0 < n) :
    Agree w t w' t' (n - 1) :=
  ⟨fun i hi => get S (by omega), fun i hi => by omega⟩

theorem word (S : SameStart w w' brk brk' n) (hs : Short N look) {p t t' q : Nat} {data : Str} (hp : p + N < n)
    (ht : t' = t ∨ n ≤ t ∧ n ≤ t') (h : WordAt ct w look p t q data) : WordAt ct w' look p t' q data := by
  obtain ⟨h1, h2, h3, h4, h5⟩ := h
  have hlong := S.long'
  have hlen := hs _ _ h3
  have : (piece w p q).length = q - p := by
    unfold piece
    rw [List.length_take, List.length_drop]
    omega
  have hq : q < n := by omega
  refine ⟨h1, by omega, by rw [← piece_eq S hq.le]; exact h3, by omega, ?_⟩
  rcases h5 with h5 | ⟨c, h5, h6⟩
  · exact .inl (by omega)
  · exact .inr ⟨c, ⟨by omega, by rw [← get S hq]; exact h5.2⟩, h6⟩

theorem abbr (S : SameStart w w' brk brk' n) {p t t' q : Nat} (hp : p + 4 < n)
    (ht : t' = t ∨ n ≤ t ∧ n ≤ t') (h : IsAbbr ct w p t q) : IsAbbr ct w' p t' q := by
  obtain ⟨h1, h2, h3⟩ := h
  have hq : q ≤ p + 5 := by rcases h3 with ⟨m, hm, rfl, -⟩ | ⟨rfl, -⟩ <;> omega
  refine ⟨by rw [← get S (by omega : p - 1 < n)]; exact h1, by omega, ?_⟩
  rcases h3 with ⟨m, hm, rfl, h4, h5⟩ | ⟨rfl, h4, c, h5, h6⟩
  · refine .inl ⟨m, hm, rfl, fun i a b => ?_, by rw [← get S (by omega)]; exact h5⟩
    rw [← get S (by omega : i < n)]
    exact h4 i a b
  · exact .inr ⟨rfl, by omega, c, by rw [← get S (by omega)]; exact h5, h6⟩

/-- Every step of a reading is one of the other text. -/
theorem rule (S : SameStart w w' brk brk' n) (hs : Short N look) (hN : 4 ≤ N) {c c' : Config}
    (h : Rule ct w look brk c c') (hc : c'.pos + N ≤ n) : Rule ct w' look brk' c c' ∧ c.pos < c'.pos := by
  have key : ∀ {p t : Nat}, TokenTo ct w brk p t → p < c'.pos → ∃ t', TokenTo ct w' brk' p t' ∧
      (t' = t ∨ n ≤ t ∧ n ≤ t') ∧ ((∀ q data, ¬ WordAt ct w look p t q data) → ∀ q data, ¬ WordAt ct w' look p t' q data) ∧
      ((∀ q, ¬ IsAbbr ct w p t q) → ∀ q, ¬ IsAbbr ct w' p t' q) := by
    intro p t h1 hp
    obtain ⟨t', g1, g2⟩ := token S (by omega) h1
    have g3 : t = t' ∨ n ≤ t' ∧ n ≤ t := g2.imp Eq.symm And.symm
    exact ⟨t', g1, g2, fun h q data hw => h q data (word (symm S) hs (by omega) g3 hw),
      fun h q ha => h q (abbr (symm S) (by omega) g3 ha)⟩
  have hlong := S.long
  have hlong' := S.long'
  cases h with
  | other h =>
    obtain ⟨h1, h2, h3, h4⟩ := h
    simp only at hc
    refine ⟨?_, h1⟩
    rw [piece_eq S (by omega)]
    refine .other ⟨h1, by omega, fun i a b hh => h3 i a b ((textAt S (by omega)).mpr hh), .inr ?_⟩
    rcases h4 with h4 | h4
    · omega
    · exact (textAt S (by omega)).mp h4
  | word h1 h2 h3 h4 =>
    simp only at hc key
    obtain ⟨t', g1, g2, -⟩ := key h1 h2.1
    have := h2.1
    exact ⟨.word g1 (word S hs (by omega) g2 h2) h3 h4, h2.1⟩
  | @abbr p l es t q new h1 h2 h3 h4 =>
    simp only at hc key
    have hpq : p < q := by rcases h3.shape with ⟨m, -, h, -⟩ | ⟨h, -⟩ <;> omega
    obtain ⟨t', g1, g2, g3, -⟩ := key h1 hpq
    refine ⟨.abbr g1 (g3 h2) (abbr S (by omega) g2 h3) ?_, hpq⟩
    unfold AbbrNames at h4 ⊢
    rw [← get S (by omega), ← piece_eq S (by omega)]
    exact h4
  | @syl p l es t o r h1 h2 h3 h4 =>
    simp only at hc key
    have hlt : p < r.stop := by
      have hn : 0 < n := by omega
      exact (spelled (w' := w) (t' := t) (N := r.stop + 3) ⟨fun _ _ => rfl, fun _ _ => Iff.rfl⟩ h4 (Nat.le_refl _)).2
    obtain ⟨t', g1, g2, g3, g4⟩ := key h1 hlt
    exact ⟨.syl g1 (g3 h2) (g4 h3) (spelled (agree S g2 (by omega)) h4 (by omega)).1, hlt⟩
  | @dot p l es t h1 h2 h3 h4 =>
    simp only at hc key
    obtain ⟨t', g1, g2, g3, g4⟩ := key h1 (Nat.lt_succ_self _)
    exact ⟨.dot g1 (g3 h2) (g4 h3) (by rw [← get S (by omega)]; exact h4), Nat.lt_succ_self _⟩

/-- Every partial reading is one of the other text. -/
theorem deriv (S : SameStart w w' brk brk' n) (hs : Short N look) (hN : 4 ≤ N) {c : Config}
    (h : RuleDeriv ct w look brk c) (hc : c.pos + N ≤ n) : RuleDeriv ct w' look brk' c := by
  induction h with
  | refl => exact .refl
  | @tail c c' _ h ih =>
    obtain ⟨g1, g2⟩ := rule S hs hN h hc
    exact (ih (by omega)).tail g1

/-! ## Cutting a reading -/

/-- The node after the edges. -/
def endE (a : Int) : List (Entry Syl) → Int
  | [] => a
  | e :: es => endE e.target es

theorem endE_append (a : Int) (l l' : List (Entry Syl)) : endE a (l ++ l') = endE (endE a l) l' := by
  induction l generalizing a with
  | nil => rfl
  | cons e l ih => exact ih _

theorem isPron_end {s : List Syl} {es : List (Entry Syl)} (h : IsPron s es) (a : Int) : nodeAfter a s = endE a es := by
  induction h generalizing a with
  | nil => rfl
  | cons h _ ih => rw [nodeAfter, endE, h.2, ih]

theorem isPron_split {s1 s2 : List Syl} {es : List (Entry Syl)} (h : IsPron (s1 ++ s2) es) :
    ∃ e1 e2, es = e1 ++ e2 ∧ IsPron s1 e1 ∧ IsPron s2 e2 := by
  induction s1 generalizing es with
  | nil => exact ⟨[], es, rfl, .nil, h⟩
  | cons x s1 ih =>
    cases h with
    | cons hx h =>
      obtain ⟨e1, e2, rfl, h1, h2⟩ := ih h
      exact ⟨_ :: e1, e2, rfl, .cons hx h1, h2⟩

theorem isPron_append {s1 s2 : List Syl} {e1 e2 : List (Entry Syl)} (h1 : IsPron s1 e1) (h2 : IsPron s2 e2) :
    IsPron (s1 ++ s2) (e1 ++ e2) := by
  induction h1 with
  | nil => exact h2
  | cons h _ ih => exact .cons h ih

theorem route_after {E : Int → Int → Syl → Prop} {a b : Int} {s1 s2 : List Syl} (h : Route E a b (s1 ++ s2)) :
    Route E (nodeAfter a s1) b s2 := by
  induction s1 generalizing a with
  | nil => exact h
  | cons x s1 ih => exact ih h.2

/-- A reading cut at a node between written syllables. -/
theorem cut (hct : ct.Ok) (hg : GoodLook look) (hu : Unmixed ct w look brk) {c : Config} (h : RuleDeriv ct w look brk c) :
    ∀ e1 e2, c.edges = e1 ++ e2 → ∀ a : Nat, endE 0 e1 = a → ∃ c1, RuleDeriv ct w look brk c1 ∧ c1.edges = e1 ∧ c1.pos = a := by
  induction h with
  | refl =>
    intro e1 e2 he a ha
    obtain ⟨rfl, rfl⟩ := List.append_eq_nil_iff.mp he.symm
    exact ⟨_, .refl, rfl, by simp only [endE] at ha ⊢; omega⟩
  | @tail c c' hc hs ih =>
    intro e1 e2 he a ha
    obtain ⟨new, h1, hr⟩ := rule_seg hu.dot hs
    have hc' : RuleDeriv ct w look brk c' := hc.tail hs
    rw [h1] at he
    rcases List.append_eq_append_iff.mp he with ⟨z, hz, hn⟩ | ⟨z, hz, hn⟩
    · have seg : Seg ct w look brk c.pos c.linked c'.pos c'.linked new := ⟨hr, rules_linkedAt hct hu.dot hc⟩
      rw [hz, endE_append] at ha
      cases z with
      | nil =>
        rw [List.append_nil] at hz
        exact ih e1 [] (by rw [hz, List.append_nil]) a (by rw [hz]; exact ha)
      | cons x z =>
        rcases seg.shape hct hg hu with ⟨y, rfl⟩ | ⟨j1, j2, t, o, r, y, y', -, -, -, -, rfl⟩
        · rw [List.cons_append, List.cons.injEq] at hn
          obtain ⟨rfl, hn⟩ := hn
          obtain ⟨rfl, rfl⟩ := List.append_eq_nil_iff.mp hn.symm
          exact ⟨c', hc', by rw [h1, hz], by simpa [endE] using ha⟩
        · rw [List.cons_append, List.cons.injEq] at hn
          obtain ⟨rfl, hn⟩ := hn
          cases z with
          | nil =>
            simp only [endE, spanPos] at ha
            omega
          | cons x z =>
            rw [List.cons_append, List.cons.injEq] at hn
            obtain ⟨rfl, hn⟩ := hn
            obtain ⟨rfl, rfl⟩ := List.append_eq_nil_iff.mp hn.symm
            exact ⟨c', hc', by rw [h1, hz], by simpa [endE] using ha⟩
    · exact ih e1 z hz a ha

end Near

end Thpronun
