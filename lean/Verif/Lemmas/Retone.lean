import Verif.Spec.Retone
import Verif.Lemmas.Listed
import Verif.Lemmas.Count

/-! # Lemmas on texts that differ in their tone marks only -/

namespace Thpronun
open Res Spec DAG

variable {ct : CType} {w w' : U16Str} {t : Nat}

namespace Spec.Exchanged

theorem symm (X : Exchanged ct w w') : Exchanged ct w' w := by
  induction X with
  | nil => exact .nil
  | cons h _ ih => exact .cons (h.imp Eq.symm And.symm) ih

theorem len (X : Exchanged ct w w') : w.length = w'.length := List.Forall₂.length_eq X

/-- A character and the one at its place in the other text. -/
theorem get (X : Exchanged ct w w') {i c : Nat} (h : w[i]? = some c) :
    ∃ c' : Nat, w'[i]? = some c' ∧ (c = c' ∨ (ct.isTone c = true ∧ ct.isTone c' = true)) := by
  induction X generalizing i with
  | nil => cases h
  | cons hx _ ih =>
    cases i with
    | zero => cases h; exact ⟨_, rfl, hx⟩
    | succ i => exact ih h

variable (X : Exchanged ct w w')
include X

theorem keep {i c : Nat} (hc : ct.isTone c = false) (h : w[i]? = some c) : w'[i]? = some c := by
  obtain ⟨c', h1, h2 | h2⟩ := X.get h
  · rw [h1, h2]
  · rw [hc] at h2; cases h2.1

theorem «at» {i c : Nat} (hc : ct.isTone c = false) (h : At w t i c) : At w' t i c := ⟨h.1, X.keep hc h.2⟩

end Spec.Exchanged

section
variable (hct : ct.Ok)
include hct

theorem noTone {c : Nat} (h : c < 0x0e48 ∨ 0x0e4b < c) : ct.isTone c = false := by
  cases ht : ct.isTone c with
  | false => rfl
  | true => have := hct.tone c ht; omega

theorem noTone_cons {c : Nat} (h : ct.isCons c = true) : ct.isTone c = false := by
  have := hct.cons c h; exact noTone hct (by omega)

theorem noTone_ld {c : Nat} (h : ct.isLdVowel c = true) : ct.isTone c = false := by
  have := hct.ld c h; exact noTone hct (by omega)

theorem tone_noCons {c : Nat} (h : ct.isTone c = true) : ct.isCons c = false := by
  cases hc : ct.isCons c with
  | false => rfl
  | true => rw [noTone_cons hct hc] at h; cases h

theorem tone_noLd {c : Nat} (h : ct.isTone c = true) : ct.isLdVowel c = false := by
  cases hc : ct.isLdVowel c with
  | false => rfl
  | true => rw [noTone_ld hct hc] at h; cases h

end

namespace Spec.Exchanged
variable (hct : ct.Ok)
include hct

theorem lit (X : Exchanged ct w w') {i c : Nat} (hc : c < 0x0e48 ∨ 0x0e4b < c) (h : At w t i c) : At w' t i c :=
  X.at (noTone hct hc) h

theorem lit_iff (X : Exchanged ct w w') {i c : Nat} (hc : c < 0x0e48 ∨ 0x0e4b < c) : At w t i c ↔ At w' t i c :=
  ⟨X.lit hct hc, X.symm.lit hct hc⟩

theorem startAt (X : Exchanged ct w w') {i : Nat} (h : StartAt ct w t i) : StartAt ct w' t i := by
  obtain ⟨c, h, hc⟩ := h
  exact ⟨c, X.at (hc.elim (noTone_cons hct) (noTone_ld hct)) h, hc⟩

theorem startAt_iff (X : Exchanged ct w w') {i : Nat} : StartAt ct w t i ↔ StartAt ct w' t i :=
  ⟨X.startAt hct, X.symm.startAt hct⟩

theorem endOrStart_iff (X : Exchanged ct w w') {i : Nat} : EndOrStart ct w t i ↔ EndOrStart ct w' t i := by
  unfold EndOrStart; rw [X.startAt_iff hct]

theorem silent (X : Exchanged ct w w') {i : Nat} (h : Silent ct w t i) : Silent ct w' t i := by
  obtain ⟨c, h, hc, h'⟩ := h
  exact ⟨c, X.at (noTone_cons hct hc) h, hc, X.lit hct (by decide) h'⟩

theorem silent_iff (X : Exchanged ct w w') {i : Nat} : Silent ct w t i ↔ Silent ct w' t i :=
  ⟨X.silent hct, X.symm.silent hct⟩

theorem silent2 (X : Exchanged ct w w') {i : Nat} {A : Nat → Prop} (hA : ∀ d, A d → ct.isTone d = false)
    (h : Silent2 ct w t A i) : Silent2 ct w' t A i := by
  obtain ⟨c, d, h, hc, h', hd, h''⟩ := h
  exact ⟨c, d, X.at (noTone_cons hct hc) h, hc, X.at (hA d hd) h', hd, X.lit hct (by decide) h''⟩

theorem iu {d : Nat} (h : IU d) : ct.isTone d = false := by
  rcases h with rfl | rfl <;> exact noTone hct (by decide)

theorem silent2_iu (X : Exchanged ct w w') {i : Nat} : Silent2 ct w t IU i ↔ Silent2 ct w' t IU i :=
  ⟨X.silent2 hct fun _ => iu hct, X.symm.silent2 hct fun _ => iu hct⟩

theorem silent2_any (X : Exchanged ct w w') {i : Nat} :
    Silent2 ct w t (fun d => ct.isCons d = true ∨ IU d) i ↔ Silent2 ct w' t (fun d => ct.isCons d = true ∨ IU d) i :=
  ⟨X.silent2 hct fun _ h => h.elim (noTone_cons hct) (iu hct), X.symm.silent2 hct fun _ h => h.elim (noTone_cons hct) (iu hct)⟩

theorem skip_iff (X : Exchanged ct w w') {i k : Nat} : Skip ct w t i k ↔ Skip ct w' t i k := by
  unfold Skip; rw [X.silent_iff hct]

theorem skipIU_iff (X : Exchanged ct w w') {i k : Nat} : SkipIU ct w t i k ↔ SkipIU ct w' t i k := by
  unfold SkipIU; rw [X.silent2_iu hct]

theorem skipAny_iff (X : Exchanged ct w w') {i k : Nat} : SkipAny ct w t i k ↔ SkipAny ct w' t i k := by
  unfold SkipAny; rw [X.silent_iff hct, X.silent2_any hct]

theorem finalAt (X : Exchanged ct w w') {i : Nat} {e c f} (h : FinalAt ct w t i e c f) : FinalAt ct w' t i e c f :=
  ⟨X.at (noTone_cons hct h.2.1) h.1, h.2⟩

theorem finalAt_iff (X : Exchanged ct w w') {i : Nat} {e c f} : FinalAt ct w t i e c f ↔ FinalAt ct w' t i e c f :=
  ⟨X.finalAt hct, X.symm.finalAt hct⟩

theorem closed_iff (X : Exchanged ct w w') {i e k b f} : Closed ct w t i e k b f ↔ Closed ct w' t i e k b f := by
  unfold Closed; simp only [X.finalAt_iff hct, X.skipAny_iff hct]

theorem silentTail (X : Exchanged ct w w') {i c : Nat} (h : SilentTail ct w t i c) : SilentTail ct w' t i c :=
  ⟨(X.endOrStart_iff hct).mp h.1, h.2.imp (And.imp_left (X.lit hct (by decide)))
    (Exists.imp fun _ h => ⟨X.at (iu hct h.2.1) h.1, h.2⟩)⟩

theorem link_noTone {n : Nat} (h : n ∈ linkVowels ∨ ct.isCons n = true) : ct.isTone n = false := by
  rcases h with h | h
  · exact noTone hct (by revert h; revert n; decide)
  · exact noTone_cons hct h

theorem links (X : Exchanged ct w w') {i c : Nat} (h : Links ct w t i c) : Links ct w' t i c := by
  rcases h with ⟨d, n, h1, h2, h3, h4⟩ | ⟨d, h1, h2, h3, h4⟩
  · exact .inl ⟨d, n, X.at (noTone_cons hct h2) h1, h2, X.at (link_noTone hct h4) h3, h4⟩
  · exact .inr ⟨d, X.at (link_noTone hct (.inl h3)) h1, h2, h3, h4⟩

theorem closedX (X : Exchanged ct w w') {i e k b f} (h : ClosedX ct w t i e k b f) : ClosedX ct w' t i e k b f := by
  obtain ⟨c, h1, h2⟩ := h
  exact ⟨c, X.finalAt hct h1, h2.imp (And.imp_right (X.skipAny_iff hct).mp)
    (And.imp (X.skipAny_iff hct).mp (Or.imp (And.imp_right (And.imp_right (X.silentTail hct)))
      (And.imp_right (And.imp_right (X.links hct)))))⟩

theorem withRu (X : Exchanged ct w w') {i c snd cls o} (h : WithRu ct w t i c snd cls o) : WithRu ct w' t i c snd cls o := by
  unfold WithRu at h ⊢; simp only [X.finalAt_iff hct] at h ⊢; exact h

theorem ruAt_iff (X : Exchanged ct w w') {i : Nat} : RuAt w t i ↔ RuAt w' t i := by
  unfold RuAt
  rw [X.lit_iff hct (i := i + 1) (by decide), X.lit_iff hct (c := ch!"ๅ") (by decide), X.lit_iff hct (c := ch!"า") (by decide)]

theorem onsetAt (X : Exchanged ct w w') {i l o} (h : OnsetAt ct w t i l o) : OnsetAt ct w' t i l o := by
  obtain ⟨c, snd, cls, h1, h2, h3⟩ := h
  refine ⟨c, snd, cls, X.keep (noTone_cons hct h2.1) h1, h2, h3.imp_right (Or.imp ?_ ?_)⟩
  · rintro ⟨d, s2, c2, k1, k2, k3, k4⟩
    exact ⟨d, s2, c2, X.at (noTone_cons hct k2.1) k1, k2, fun k => k3 (k.imp_right (X.symm.lit hct (by decide))), k4⟩
  · exact And.imp (X.ruAt_iff hct).mp (X.withRu hct)

theorem wholeAt (X : Exchanged ct w w') {i o r} (h : WholeAt ct w t i o r) : WholeAt ct w' t i o r := by
  obtain ⟨c, snd, cls, h1, h2, h3⟩ := h
  refine ⟨c, snd, cls, X.keep (noTone_cons hct h2.1) h1, h2, ?_⟩
  simp only [X.startAt_iff hct, X.lit_iff hct (c := ch!"ด") (by decide), X.lit_iff hct (c := ch!"ิ") (by decide),
    X.lit_iff hct (c := ch!"ี") (by decide), X.lit_iff hct (c := ch!"ร") (by decide), X.lit_iff hct (c := ch!"ะ") (by decide),
    X.ruAt_iff hct, X.finalAt_iff hct] at h3
  exact h3

end Spec.Exchanged

/-! ## Rimes -/

/-- The rime with another mark. -/
def rm (r : Rime) (m : Tone) : Rime := { r with mark := m }

/-- The same mark, or marks at the same place from `a` up to `b`. -/
def Mk (w w' : U16Str) (a b : Nat) (m m' : Tone) : Prop :=
  m = m' ∨ ∃ (q c c' : Nat), a ≤ q ∧ q < b ∧ w[q]? = some c ∧ w'[q]? = some c' ∧ (c, m) ∈ marks ∧ (c', m') ∈ marks

theorem Mk.fin {i j k : Nat} {m m1 : Tone} {r : Rime} (h : Mk w w' i k m m1) (hj : j ≤ i) (hr : r.mark = m ∧ k ≤ r.stop) :
    Mk w w' j r.stop r.mark m1 := by
  rw [hr.1]
  refine h.imp_right ?_
  rintro ⟨q, c, c', h1, h2, h3⟩
  exact ⟨q, c, c', by omega, by omega, h3⟩

theorem skip_le {i k : Nat} (h : Skip ct w t i k) : i ≤ k := by
  rcases h with h | h <;> omega

theorem skipIU_le {i k : Nat} (h : SkipIU ct w t i k) : i ≤ k := by
  rcases h with h | h <;> omega

theorem skipAny_le {i k : Nat} (h : SkipAny ct w t i k) : i ≤ k := by
  rcases h with h | h | h <;> omega

theorem Mk.mono {i j k : Nat} {m m1 : Tone} (h : Mk w w' i k m m1) (hj : j ≤ i) : Mk w w' j k m m1 := by
  refine h.imp_right ?_
  rintro ⟨q, c, c', h1, h2, h3⟩
  exact ⟨q, c, c', by omega, by omega, h3⟩

theorem onset_past {i l o} (h : OnsetAt ct w t i l o) : i + 1 ≤ o.stop := by
  obtain ⟨c, snd, cls, -, -, rfl | ⟨d, s2, c2, -, -, -, h⟩ | ⟨-, h⟩⟩ := h
  · exact Nat.le_refl _
  · rcases h with ⟨_, _, -, -, -, rfl⟩ | ⟨-, -, -, rfl⟩ | ⟨-, -, rfl⟩ | rfl <;> exact Nat.le_succ _
  · rcases h with ⟨-, rfl⟩ | ⟨-, rfl | rfl⟩ | ⟨-, rfl⟩ | ⟨-, rfl⟩ | ⟨-, -, rfl⟩ | ⟨-, v, -, ⟨-, rfl⟩ | rfl⟩ <;> exact Nat.le_succ _

namespace Spec.Exchanged

theorem markAt (hct : ct.Ok) (X : Exchanged ct w w') {i k : Nat} {m : Tone} (h : MarkAt ct w t i m k) :
    ∃ m1, MarkAt ct w' t i m1 k ∧ (m = .SAMAN ↔ m1 = .SAMAN) ∧ Mk w w' i k m m1 ∧ i ≤ k := by
  rcases h with ⟨c, h1, h2, h3, rfl⟩ | ⟨h1, rfl, rfl⟩
  · obtain ⟨c', h4, h5⟩ := X.get h1.2
    have ht : ct.isTone c' = true := h5.elim (fun e => e ▸ h2) And.right
    obtain ⟨m1, hm⟩ : ∃ m1, (c', m1) ∈ marks := by
      have := hct.tone c' ht
      obtain rfl | rfl | rfl | rfl : c' = ch!"่" ∨ c' = ch!"้" ∨ c' = ch!"๊" ∨ c' = ch!"๋" := by
        show c' = 0x0e48 ∨ c' = 0x0e49 ∨ c' = 0x0e4a ∨ c' = 0x0e4b
        omega
      exacts [⟨.EK, by decide⟩, ⟨.THO, by decide⟩, ⟨.TRI, by decide⟩, ⟨.CHATTAWA, by decide⟩]
    have hs : ∀ x ∈ marks, x.2 ≠ .SAMAN := by decide
    exact ⟨m1, .inl ⟨c', ⟨h1.1, h4⟩, ht, hm, rfl⟩, iff_of_false (hs _ h3) (hs _ hm),
      .inr ⟨i, c, c', Nat.le_refl _, by omega, h1.2, h4, h3, hm⟩, by omega⟩
  · refine ⟨.SAMAN, .inr ⟨fun c hc => ?_, rfl, rfl⟩, Iff.rfl, .inl rfl, Nat.le_refl _⟩
    obtain ⟨c', h4, h5⟩ := X.symm.get hc.2
    rcases h5 with rfl | h5
    · exact h1 _ ⟨hc.1, h4⟩
    · rw [h1 _ ⟨hc.1, h4⟩] at h5; cases h5.2

variable (hct : ct.Ok) (X : Exchanged ct w w') {r : Rime}
include hct X

theorem open_ {j v f m} (h : Open ct w t j v f m r) (m1 : Tone) : Open ct w' t j v f m1 (rm r m1) ∧ r.mark = m ∧ j ≤ r.stop := by
  obtain ⟨k, h1, rfl⟩ := h
  exact ⟨⟨k, (X.skip_iff hct).mp h1, rfl⟩, rfl, skip_le h1⟩

theorem shut_ {j e v m} (h : Shut ct w t j e v m r) (m1 : Tone) : Shut ct w' t j e v m1 (rm r m1) ∧ r.mark = m ∧ j ≤ r.stop := by
  obtain ⟨k, b, f, h1, rfl⟩ := h
  refine ⟨⟨k, b, f, (X.closed_iff hct).mp h1, rfl⟩, rfl, ?_⟩
  obtain ⟨c, -, -, h2⟩ := h1
  have := skipAny_le h2
  exact Nat.le_of_succ_le this

theorem shutX_ {j e v m} (h : ShutX ct w t j e v m r) (m1 : Tone) : ShutX ct w' t j e v m1 (rm r m1) ∧ r.mark = m ∧ j ≤ r.stop := by
  obtain ⟨k, b, f, h1, rfl⟩ := h
  refine ⟨⟨k, b, f, X.closedX hct h1, rfl⟩, rfl, ?_⟩
  obtain ⟨c, -, ⟨-, h2⟩ | ⟨-, ⟨-, rfl, -⟩ | ⟨-, rfl, -⟩⟩⟩ := h1
  · exact Nat.le_of_succ_le (skipAny_le h2)
  · exact Nat.le_add_right _ _
  · exact Nat.le_refl _

theorem skipShut {j e v m} (h : ∃ k', Skip ct w t j k' ∧ Shut ct w t k' e v m r) (m1 : Tone) :
    (∃ k', Skip ct w' t j k' ∧ Shut ct w' t k' e v m1 (rm r m1)) ∧ r.mark = m ∧ j ≤ r.stop := by
  obtain ⟨k, h1, h2⟩ := h
  obtain ⟨a, b, c⟩ := X.shut_ hct h2 m1
  exact ⟨⟨k, (X.skip_iff hct).mp h1, a⟩, b, Nat.le_trans (skip_le h1) c⟩

theorem skipShutX {j e v m} (h : ∃ k', Skip ct w t j k' ∧ ShutX ct w t k' e v m r) (m1 : Tone) :
    (∃ k', Skip ct w' t j k' ∧ ShutX ct w' t k' e v m1 (rm r m1)) ∧ r.mark = m ∧ j ≤ r.stop := by
  obtain ⟨k, h1, h2⟩ := h
  obtain ⟨a, b, c⟩ := X.shutX_ hct h2 m1
  exact ⟨⟨k, (X.skip_iff hct).mp h1, a⟩, b, Nat.le_trans (skip_le h1) c⟩

theorem hanRime {j} (h : HanRime ct w t j r) : ∃ m1, HanRime ct w' t j (rm r m1) ∧ Mk w w' j r.stop r.mark m1 := by
  obtain ⟨h0, m, k, hm, h⟩ := h
  obtain ⟨m1, hm', hs, hk, hik⟩ := X.markAt hct hm
  refine ⟨m1, ?_⟩
  have h0' := X.lit hct (by decide) h0
  have lw : ∀ {i}, At w t i ch!"ว" ↔ At w' t i ch!"ว" := X.lit_iff hct (by decide)
  have la : ∀ {i}, At w t i ch!"ะ" ↔ At w' t i ch!"ะ" := X.lit_iff hct (by decide)
  rcases h with ⟨a, b, h⟩ | ⟨a, b, h⟩ | ⟨a, b, h⟩ | ⟨a, b, h⟩
  · obtain ⟨h1, h2, h3⟩ := X.open_ hct h m1
    exact ⟨⟨h0', m1, k, hm', .inl ⟨lw.mp a, la.mp b, h1⟩⟩, hk.fin (by omega) ⟨h2, by omega⟩⟩
  · obtain ⟨h1, h2, h3⟩ := X.open_ hct h m1
    exact ⟨⟨h0', m1, k, hm', .inr (.inl ⟨lw.mp a, mt la.mpr b, h1⟩)⟩, hk.fin (by omega) ⟨h2, by omega⟩⟩
  · obtain ⟨h1, h2, h3⟩ := X.shutX_ hct h m1
    exact ⟨⟨h0', m1, k, hm', .inr (.inr (.inl ⟨mt lw.mpr a, hs.mp b, h1⟩))⟩, hk.fin (by omega) ⟨h2, by omega⟩⟩
  · obtain ⟨h1, h2, h3⟩ := X.shut_ hct h m1
    exact ⟨⟨h0', m1, k, hm', .inr (.inr (.inr ⟨mt lw.mpr a, mt hs.mpr b, h1⟩))⟩, hk.fin (by omega) ⟨h2, by omega⟩⟩

theorem ld_none {k} (h : ∀ c, At w t k c → ct.isLdVowel c = false) : ∀ c, At w' t k c → ct.isLdVowel c = false := by
  intro c hc
  cases hl : ct.isLdVowel c with
  | false => rfl
  | true => rw [← hl]; exact h c (X.symm.at (noTone_ld hct hl) hc)

theorem ld_other {k} (h : ∃ c, At w t k c ∧ ct.isLdVowel c = false) : ∃ c, At w' t k c ∧ ct.isLdVowel c = false := by
  obtain ⟨c, h1, h2⟩ := h
  obtain ⟨c', h3, h4⟩ := X.get h1.2
  exact ⟨c', ⟨h1.1, h3⟩, h4.elim (fun e => e ▸ h2) fun h => tone_noLd hct h.2⟩

theorem signFinal {k v m m1} (hs : m = .SAMAN ↔ m1 = .SAMAN) (h : SignFinal ct w t k v m r) :
    SignFinal ct w' t k v m1 (rm r m1) ∧ r.mark = m ∧ k ≤ r.stop := by
  obtain ⟨h0, h⟩ := h
  have h0' := X.ld_none hct h0
  have lo : ∀ {i}, At w t i ch!"อ" ↔ At w' t i ch!"อ" := X.lit_iff hct (by decide)
  rcases h with ⟨a, b, h⟩ | ⟨a, b, h⟩ | ⟨a, b, h⟩ | ⟨a, b, c, h⟩
  · obtain ⟨h1, h2, h3⟩ := X.open_ hct h m1
    exact ⟨⟨h0', .inl ⟨a, lo.mp b, h1⟩⟩, h2, by omega⟩
  · obtain ⟨h1, h2, h3⟩ := X.shut_ hct h m1
    exact ⟨⟨h0', .inr (.inl ⟨a, mt lo.mpr b, h1⟩)⟩, h2, h3⟩
  · obtain ⟨h1, h2, h3⟩ := X.shut_ hct h m1
    exact ⟨⟨h0', .inr (.inr (.inl ⟨a, b.imp_right (mt hs.mpr), h1⟩))⟩, h2, h3⟩
  · obtain ⟨h1, h2, h3⟩ := X.shutX_ hct h m1
    exact ⟨⟨h0', .inr (.inr (.inr ⟨a, b, hs.mp c, h1⟩))⟩, h2, h3⟩

theorem signRime {j} (h : SignRime ct w t j r) : ∃ m1, SignRime ct w' t j (rm r m1) ∧ Mk w w' j r.stop r.mark m1 := by
  obtain ⟨c, v, m, k, hc, hv, hcv, hm, h⟩ := h
  obtain ⟨m1, hm', hs, hk, hik⟩ := X.markAt hct hm
  refine ⟨m1, ?_⟩
  have hc' := X.at (t := t) (i := j) (c := c) (noTone hct (by
    have : ∀ x ∈ signVowels, x.1 < 0x0e48 := by decide
    exact .inl (this _ hcv))) hc
  rcases h with ⟨a, b, h⟩ | ⟨a, h⟩
  · obtain ⟨h1, h2, h3⟩ := X.signFinal hct hs h
    exact ⟨⟨c, v, m1, k, hc', hv, hcv, hm', .inl ⟨a, X.ld_other hct b, h1⟩⟩, hk.fin (by omega) ⟨h2, by omega⟩⟩
  · have a' : ¬ (v = VW.UEE ∧ ∃ c, At w' t k c ∧ ct.isLdVowel c = false) := fun h => a ⟨h.1, X.symm.ld_other hct h.2⟩
    rcases h with ⟨b, rfl | h⟩ | ⟨b, d, rfl⟩ | ⟨b, d, rfl | h⟩
    · exact ⟨⟨c, v, m1, k, hc', hv, hcv, hm', .inr ⟨a', .inl ⟨X.silent hct b, .inl rfl⟩⟩⟩,
        hk.fin (by omega) ⟨rfl, Nat.le_add_right _ _⟩⟩
    · obtain ⟨h1, h2, h3⟩ := X.signFinal hct hs h
      exact ⟨⟨c, v, m1, k, hc', hv, hcv, hm', .inr ⟨a', .inl ⟨X.silent hct b, .inr h1⟩⟩⟩, hk.fin (by omega) ⟨h2, by omega⟩⟩
    · exact ⟨⟨c, v, m1, k, hc', hv, hcv, hm', .inr ⟨a', .inr (.inl ⟨mt (X.silent_iff hct).mpr b, (X.silent2_iu hct).mp d, rfl⟩)⟩⟩,
        hk.fin (by omega) ⟨rfl, Nat.le_add_right _ _⟩⟩
    · exact ⟨⟨c, v, m1, k, hc', hv, hcv, hm', .inr ⟨a', .inr (.inr ⟨mt (X.silent_iff hct).mpr b, mt (X.silent2_iu hct).mpr d,
        .inl rfl⟩)⟩⟩, hk.fin (by omega) ⟨rfl, Nat.le_refl _⟩⟩
    · obtain ⟨h1, h2, h3⟩ := X.signFinal hct hs h
      exact ⟨⟨c, v, m1, k, hc', hv, hcv, hm', .inr ⟨a', .inr (.inr ⟨mt (X.silent_iff hct).mpr b, mt (X.silent2_iu hct).mpr d,
        .inr h1⟩)⟩⟩, hk.fin (by omega) ⟨h2, by omega⟩⟩

theorem shortORime {j} (h : ShortORime ct w t j r) : ∃ m1, ShortORime ct w' t j (rm r m1) ∧ Mk w w' j r.stop r.mark m1 := by
  obtain ⟨h1, h2, h3⟩ := h
  obtain ⟨a, b, -⟩ := X.skipShut hct h3 .SAMAN
  exact ⟨.SAMAN, ⟨X.lit hct (by decide) h1, X.lit hct (by decide) h2, a⟩, .inl b⟩

theorem roRime {o k m} (h : RoRime ct w t o k m r) (m1 : Tone) : RoRime ct w' t o k m1 (rm r m1) ∧ r.mark = m ∧ k ≤ r.stop := by
  obtain ⟨h0, h⟩ := h
  have h0' := X.lit hct (by decide) h0
  rcases h with ⟨a, h⟩ | ⟨k', a, b, h⟩
  · obtain ⟨h1, h2, h3⟩ := X.open_ hct h m1
    exact ⟨⟨h0', .inl ⟨a, h1⟩⟩, h2, by omega⟩
  · have a' : if o.sound = .RA then k' = k + 1 else Skip ct w' t (k + 1) k' := by rw [← X.skip_iff hct]; exact a
    have hk : k + 1 ≤ k' := by
      split at a
      · omega
      · exact skip_le a
    have b' := X.lit hct (by decide) b
    rcases h with h | ⟨c, h⟩
    · obtain ⟨h1, h2, h3⟩ := X.open_ hct h m1
      exact ⟨⟨h0', .inr ⟨k', a', b', .inl h1⟩⟩, h2, by omega⟩
    · obtain ⟨h1, h2, h3⟩ := X.shutX_ hct h m1
      exact ⟨⟨h0', .inr ⟨k', a', b', .inr ⟨mt (X.silent_iff hct).mpr c, h1⟩⟩⟩, h2, by omega⟩

theorem plainRime {o l j} (h : PlainRime ct w t o l j r) : ∃ m1, PlainRime ct w' t o l j (rm r m1) ∧ Mk w w' j r.stop r.mark m1 := by
  obtain ⟨m, k, hm, h⟩ := h
  obtain ⟨m1, hm', hs, hk, hik⟩ := X.markAt hct hm
  refine ⟨m1, ?_⟩
  rcases h with ⟨a, h⟩ | ⟨a, h | h⟩ | ⟨a, h⟩ | ⟨a, h⟩ | ⟨a, h | h⟩ | h | ⟨a, b, c, h⟩ | ⟨v, c, a, b, d, e, rfl | h⟩
  · obtain ⟨h1, h2, h3⟩ := X.open_ hct h m1
    exact ⟨⟨m1, k, hm', .inl ⟨X.lit hct (by decide) a, h1⟩⟩, hk.fin (by omega) ⟨h2, by omega⟩⟩
  · obtain ⟨h1, h2, h3⟩ := X.open_ hct h m1
    exact ⟨⟨m1, k, hm', .inr (.inl ⟨X.lit hct (by decide) a, .inl h1⟩)⟩, hk.fin (by omega) ⟨h2, by omega⟩⟩
  · obtain ⟨h1, h2, h3⟩ := X.skipShutX hct h m1
    exact ⟨⟨m1, k, hm', .inr (.inl ⟨X.lit hct (by decide) a, .inr h1⟩)⟩, hk.fin (by omega) ⟨h2, by omega⟩⟩
  · obtain ⟨h1, h2, h3⟩ := X.open_ hct h m1
    exact ⟨⟨m1, k, hm', .inr (.inr (.inl ⟨X.lit hct (by decide) a, h1⟩))⟩, hk.fin (by omega) ⟨h2, by omega⟩⟩
  · obtain ⟨h1, h2, h3⟩ := X.shut_ hct h m1
    exact ⟨⟨m1, k, hm', .inr (.inr (.inr (.inl ⟨X.lit hct (by decide) a, h1⟩)))⟩, hk.fin (by omega) ⟨h2, by omega⟩⟩
  · obtain ⟨h1, h2, h3⟩ := X.open_ hct h m1
    exact ⟨⟨m1, k, hm', .inr (.inr (.inr (.inr (.inl ⟨X.lit hct (by decide) a, .inl h1⟩))))⟩, hk.fin (by omega) ⟨h2, by omega⟩⟩
  · obtain ⟨h1, h2, h3⟩ := X.skipShut hct h m1
    exact ⟨⟨m1, k, hm', .inr (.inr (.inr (.inr (.inl ⟨X.lit hct (by decide) a, .inr h1⟩))))⟩, hk.fin (by omega) ⟨h2, by omega⟩⟩
  · obtain ⟨h1, h2, h3⟩ := X.roRime hct h m1
    exact ⟨⟨m1, k, hm', .inr (.inr (.inr (.inr (.inr (.inl h1)))))⟩, hk.fin (by omega) ⟨h2, by omega⟩⟩
  · obtain ⟨h1, h2, h3⟩ := X.shut_ hct h m1
    exact ⟨⟨m1, k, hm', .inr (.inr (.inr (.inr (.inr (.inr (.inl ⟨a, b, c, h1⟩))))))⟩, hk.fin (by omega) ⟨h2, by omega⟩⟩
  · exact ⟨⟨m1, k, hm', .inr (.inr (.inr (.inr (.inr (.inr (.inr ⟨v, c, a, X.at (noTone_cons hct d) b, d, e, .inl rfl⟩))))))⟩,
      hk.fin (by omega) ⟨rfl, Nat.le_refl _⟩⟩
  · obtain ⟨h1, h2, h3⟩ := X.shutX_ hct h m1
    exact ⟨⟨m1, k, hm', .inr (.inr (.inr (.inr (.inr (.inr (.inr ⟨v, c, a, X.at (noTone_cons hct d) b, d, e, .inr h1⟩))))))⟩,
      hk.fin (by omega) ⟨h2, by omega⟩⟩

theorem consRime {o l} (h : ConsRime ct w t o l r) : ∃ m1, ConsRime ct w' t o l (rm r m1) ∧ Mk w w' o.stop r.stop r.mark m1 := by
  rcases h with h | h | h | h
  · obtain ⟨m1, h1, h2⟩ := X.hanRime hct h; exact ⟨m1, .inl h1, h2⟩
  · obtain ⟨m1, h1, h2⟩ := X.signRime hct h; exact ⟨m1, .inr (.inl h1), h2⟩
  · obtain ⟨m1, h1, h2⟩ := X.shortORime hct h; exact ⟨m1, .inr (.inr (.inl h1)), h2⟩
  · obtain ⟨m1, h1, h2⟩ := X.plainRime hct h; exact ⟨m1, .inr (.inr (.inr h1)), h2⟩

theorem midRime {sign mid short long j full} (h1 : sign < 0x0e48 ∨ 0x0e4b < sign) (h2 : mid < 0x0e48 ∨ 0x0e4b < mid)
    (h : MidRime ct w t sign mid short long j full r) :
    ∃ m1, MidRime ct w' t sign mid short long j full (rm r m1) ∧ Mk w w' j r.stop r.mark m1 := by
  obtain ⟨h0, m, k, hm, hd, h⟩ := h
  obtain ⟨m1, hm', hs, hk, hik⟩ := X.markAt hct hm
  have h0' := X.lit hct h1 h0
  have hd' := X.lit hct h2 hd
  have la : ∀ {i}, At w t i ch!"ะ" ↔ At w' t i ch!"ะ" := X.lit_iff hct (by decide)
  refine ⟨m1, ?_⟩
  rcases h with ⟨a, h⟩ | ⟨a, h | ⟨k', b, h⟩⟩
  · obtain ⟨h1, h2, h3⟩ := X.open_ hct h m1
    exact ⟨⟨h0', m1, k, hm', hd', .inl ⟨la.mp a, h1⟩⟩, hk.fin (by omega) ⟨h2, by omega⟩⟩
  · obtain ⟨h1, h2, h3⟩ := X.open_ hct h m1
    exact ⟨⟨h0', m1, k, hm', hd', .inr ⟨mt la.mpr a, .inl h1⟩⟩, hk.fin (by omega) ⟨h2, by omega⟩⟩
  · have hb := skip_le b
    cases full with
    | true =>
      obtain ⟨h1, h2, h3⟩ := X.shutX_ hct h m1
      exact ⟨⟨h0', m1, k, hm', hd', .inr ⟨mt la.mpr a, .inr ⟨k', (X.skip_iff hct).mp b, h1⟩⟩⟩, hk.fin (by omega) ⟨h2, by omega⟩⟩
    | false =>
      obtain ⟨h1, h2, h3⟩ := X.shut_ hct h m1
      exact ⟨⟨h0', m1, k, hm', hd', .inr ⟨mt la.mpr a, .inr ⟨k', (X.skip_iff hct).mp b, h1⟩⟩⟩, hk.fin (by omega) ⟨h2, by omega⟩⟩

theorem eRime {o} (h : ERime ct w t o r) : ∃ m1, ERime ct w' t o (rm r m1) ∧ Mk w w' o.stop r.stop r.mark m1 := by
  have la : ∀ {i}, At w t i ch!"ะ" ↔ At w' t i ch!"ะ" := X.lit_iff hct (by decide)
  rcases h with ⟨a, b, rfl⟩ | ⟨a, m, k, k', hm, b, h⟩ | h | h | ⟨a, h⟩ | ⟨hlt, m, k, hm, h⟩
  · exact ⟨.SAMAN, .inl ⟨a, b, rfl⟩, .inl rfl⟩
  · obtain ⟨m1, hm', hs, hk, hik⟩ := X.markAt hct hm
    obtain ⟨h1, h2, h3⟩ := X.shut_ hct h m1
    have := skip_le b
    exact ⟨m1, .inr (.inl ⟨X.lit hct (by decide) a, m1, k, k', hm', (X.skip_iff hct).mp b, h1⟩), hk.fin (by omega) ⟨h2, by omega⟩⟩
  · obtain ⟨m1, h1, h2⟩ := X.midRime hct (by decide) (by decide) h
    exact ⟨m1, .inr (.inr (.inl h1)), h2⟩
  · obtain ⟨m1, h1, h2⟩ := X.midRime hct (by decide) (by decide) h
    exact ⟨m1, .inr (.inr (.inr (.inl h1))), h2⟩
  · obtain ⟨h1, h2, h3⟩ := X.shut_ hct h .SAMAN
    exact ⟨.SAMAN, .inr (.inr (.inr (.inr (.inl ⟨X.lit hct (by decide) a, h1⟩)))), .inl h2⟩
  · obtain ⟨m1, hm', hs, hk, hik⟩ := X.markAt hct hm
    refine ⟨m1, ?_⟩
    suffices hh : _ ∧ r.mark = m ∧ k ≤ r.stop from
      ⟨.inr (.inr (.inr (.inr (.inr ⟨hlt, m1, k, hm', hh.1⟩)))), hk.fin (Nat.le_refl _) hh.2⟩
    rcases h with ⟨a, rfl⟩ | ⟨a, ⟨b, h⟩ | ⟨b, h⟩ | ⟨b, h⟩⟩ | ⟨a, b, h⟩ | ⟨a, ⟨b, h⟩ | ⟨b, h⟩⟩ | ⟨a, b, h⟩ | ⟨c, a, b, d, e, n, h⟩
    · exact ⟨.inl ⟨a, rfl⟩, rfl, Nat.le_refl _⟩
    · obtain ⟨h1, h2, h3⟩ := X.open_ hct h m1
      exact ⟨.inr (.inl ⟨X.lit hct (by decide) a, .inl ⟨b, h1⟩⟩), h2, h3⟩
    · obtain ⟨h1, h2, h3⟩ := X.open_ hct h m1
      exact ⟨.inr (.inl ⟨X.lit hct (by decide) a, .inr (.inl ⟨la.mp b, h1⟩)⟩), h2, by omega⟩
    · obtain ⟨h1, h2, h3⟩ := X.open_ hct h m1
      exact ⟨.inr (.inl ⟨X.lit hct (by decide) a, .inr (.inr ⟨mt la.mpr b, h1⟩)⟩), h2, by omega⟩
    · obtain ⟨h1, h2, h3⟩ := X.open_ hct h m1
      exact ⟨.inr (.inr (.inl ⟨la.mp a, b, h1⟩)), h2, by omega⟩
    · obtain ⟨h1, h2, h3⟩ := X.open_ hct h m1
      exact ⟨.inr (.inr (.inr (.inl ⟨X.lit hct (by decide) a, .inl ⟨la.mp b, h1⟩⟩))), h2, by omega⟩
    · obtain ⟨h1, h2, h3⟩ := X.open_ hct h m1
      exact ⟨.inr (.inr (.inr (.inl ⟨X.lit hct (by decide) a, .inr ⟨mt la.mpr b, h1⟩⟩))), h2, by omega⟩
    · obtain ⟨h1, h2, h3⟩ := X.open_ hct h m1
      exact ⟨.inr (.inr (.inr (.inr (.inl ⟨X.lit hct (by decide) a, (X.endOrStart_iff hct).mp b, h1⟩)))), h2, by omega⟩
    · obtain ⟨c', a', hc⟩ := X.get a.2
      have key : c' ∉ u!"อะา" ∧ ¬ (c' = ch!"ย" ∧ EndOrStart ct w' t (k + 1)) ∧ ¬ (k = o.stop ∧ c' ∈ u!"ิีื็") := by
        rcases hc with rfl | hc
        · exact ⟨b, fun h => d (h.imp_right (X.endOrStart_iff hct).mpr), e⟩
        · have hr := hct.tone c' hc.2
          have hx : ∀ x ∈ u!"อะายิีื็", ¬ (0x0e48 ≤ x ∧ x ≤ 0x0e4b) := by decide
          exact ⟨fun h => hx c' ((by decide : u!"อะา" ⊆ u!"อะายิีื็") h) hr,
            fun h => hx c' ((by decide : [ch!"ย"] ⊆ u!"อะายิีื็") (by rw [h.1]; exact List.mem_singleton.mpr rfl)) hr,
            fun h => hx c' ((by decide : u!"ิีื็" ⊆ u!"อะายิีื็") h.2) hr⟩
      rcases h with h | h
      · obtain ⟨h1, h2, h3⟩ := X.open_ hct h m1
        exact ⟨.inr (.inr (.inr (.inr (.inr ⟨c', ⟨a.1, a'⟩, key.1, key.2.1, key.2.2, n, .inl h1⟩)))), h2, h3⟩
      · obtain ⟨h1, h2, h3⟩ := X.skipShutX hct h m1
        exact ⟨.inr (.inr (.inr (.inr (.inr ⟨c', ⟨a.1, a'⟩, key.1, key.2.1, key.2.2, n, .inr h1⟩)))), h2, h3⟩

theorem aeRime {k m} (h : AeRime ct w t k m r) (m1 : Tone) : AeRime ct w' t k m1 (rm r m1) ∧ r.mark = m ∧ k ≤ r.stop := by
  have la : ∀ {i}, At w t i ch!"ะ" ↔ At w' t i ch!"ะ" := X.lit_iff hct (by decide)
  have lm : ∀ {i}, At w t i ch!"็" ↔ At w' t i ch!"็" := X.lit_iff hct (by decide)
  rcases h with ⟨a, h⟩ | ⟨a, h⟩ | ⟨a, b, h | h⟩
  · obtain ⟨h1, h2, h3⟩ := X.open_ hct h m1
    exact ⟨.inl ⟨la.mp a, h1⟩, h2, by omega⟩
  · obtain ⟨h1, h2, h3⟩ := X.shut_ hct h m1
    exact ⟨.inr (.inl ⟨lm.mp a, h1⟩), h2, by omega⟩
  · obtain ⟨h1, h2, h3⟩ := X.open_ hct h m1
    exact ⟨.inr (.inr ⟨mt la.mpr a, mt lm.mpr b, .inl h1⟩), h2, h3⟩
  · obtain ⟨h1, h2, h3⟩ := X.skipShut hct h m1
    exact ⟨.inr (.inr ⟨mt la.mpr a, mt lm.mpr b, .inr h1⟩), h2, h3⟩

theorem oRime {k m} (h : ORime ct w t k m r) (m1 : Tone) : ORime ct w' t k m1 (rm r m1) ∧ r.mark = m ∧ k ≤ r.stop := by
  have la : ∀ {i}, At w t i ch!"ะ" ↔ At w' t i ch!"ะ" := X.lit_iff hct (by decide)
  have s1 : ∀ {i}, Silent ct w t i ↔ Silent ct w' t i := X.silent_iff hct
  have s2 : ∀ {i}, Silent2 ct w t IU i ↔ Silent2 ct w' t IU i := X.silent2_iu hct
  rcases h with ⟨a, ⟨b, rfl⟩ | ⟨b, k', c, rfl⟩⟩ | ⟨a, ⟨b, rfl | h⟩ | ⟨b, c, rfl⟩ | ⟨b, c, rfl | h⟩⟩
  · exact ⟨.inl ⟨la.mp a, .inl ⟨s1.mp b, rfl⟩⟩, rfl, Nat.le_add_right _ _⟩
  · exact ⟨.inl ⟨la.mp a, .inr ⟨mt s1.mpr b, k', (X.skipIU_iff hct).mp c, rfl⟩⟩, rfl, Nat.le_of_succ_le (skipIU_le c)⟩
  · exact ⟨.inr ⟨mt la.mpr a, .inl ⟨s1.mp b, .inl rfl⟩⟩, rfl, Nat.le_add_right _ _⟩
  · obtain ⟨h1, h2, h3⟩ := X.shutX_ hct h m1
    exact ⟨.inr ⟨mt la.mpr a, .inl ⟨s1.mp b, .inr h1⟩⟩, h2, by omega⟩
  · exact ⟨.inr ⟨mt la.mpr a, .inr (.inl ⟨mt s1.mpr b, s2.mp c, rfl⟩)⟩, rfl, Nat.le_add_right _ _⟩
  · exact ⟨.inr ⟨mt la.mpr a, .inr (.inr ⟨mt s1.mpr b, mt s2.mpr c, .inl rfl⟩)⟩, rfl, Nat.le_refl _⟩
  · obtain ⟨h1, h2, h3⟩ := X.shutX_ hct h m1
    exact ⟨.inr ⟨mt la.mpr a, .inr (.inr ⟨mt s1.mpr b, mt s2.mpr c, .inr h1⟩)⟩, h2, h3⟩

theorem aiRime {b k m} (h : AiRime ct w t b k m r) (m1 : Tone) : AiRime ct w' t b k m1 (rm r m1) ∧ r.mark = m ∧ k ≤ r.stop := by
  rcases h with h | ⟨a, c, d, rfl⟩
  · obtain ⟨h1, h2, h3⟩ := X.open_ hct h m1
    exact ⟨.inl h1, h2, h3⟩
  · exact ⟨.inr ⟨a, X.lit hct (by decide) c, (X.endOrStart_iff hct).mp d, rfl⟩, rfl, Nat.le_add_right _ _⟩

theorem leadRime {v j} (h : LeadRime ct w t v j r) : ∃ m1, LeadRime ct w' t v j (rm r m1) ∧ Mk w w' j r.stop r.mark m1 := by
  obtain ⟨m, k, hm, h⟩ := h
  obtain ⟨m1, hm', hs, hk, hik⟩ := X.markAt hct hm
  refine ⟨m1, ?_⟩
  rcases h with ⟨a, h⟩ | ⟨a, h⟩ | ⟨a, h⟩ | ⟨a, h⟩
  · obtain ⟨h1, h2⟩ := X.aeRime hct h m1
    exact ⟨⟨m1, k, hm', .inl ⟨a, h1⟩⟩, hk.fin (Nat.le_refl _) h2⟩
  · obtain ⟨h1, h2⟩ := X.oRime hct h m1
    exact ⟨⟨m1, k, hm', .inr (.inl ⟨a, h1⟩)⟩, hk.fin (Nat.le_refl _) h2⟩
  · obtain ⟨h1, h2⟩ := X.aiRime hct h m1
    exact ⟨⟨m1, k, hm', .inr (.inr (.inl ⟨a, h1⟩))⟩, hk.fin (Nat.le_refl _) h2⟩
  · obtain ⟨h1, h2⟩ := X.aiRime hct h m1
    exact ⟨⟨m1, k, hm', .inr (.inr (.inr ⟨a, h1⟩))⟩, hk.fin (Nat.le_refl _) h2⟩

theorem ruRime {i} (h : RuRime ct w t i r) : RuRime ct w' t i r := by
  rcases h with h | ⟨a, h⟩ | ⟨d, a, b, h⟩
  · exact .inl h
  · exact .inr (.inl ⟨a.imp (X.lit hct (by decide)) (X.lit hct (by decide)), h⟩)
  · refine .inr (.inr ⟨d, X.at (noTone_cons hct b) a, b, ?_⟩)
    rw [← X.startAt_iff hct]
    refine h.imp_right (And.imp_right fun h => ?_)
    obtain ⟨h1, h2, -⟩ := X.shutX_ hct h .SAMAN
    obtain ⟨s, l, v, f, m⟩ := r
    obtain rfl : m = .SAMAN := h2
    exact h1

/-- A syllable spelled in the one text is spelled in the other with the other mark. -/
theorem spelled {i l o} (h : Spelled ct w t i l o r) :
    ∃ m1, Spelled ct w' t i l o (rm r m1) ∧ Mk w w' (i + 1) r.stop r.mark m1 := by
  obtain ⟨c, hc, h⟩ := h
  rcases h with ⟨a, ⟨b, d, h⟩ | ⟨h, d⟩⟩ | ⟨rfl, a, b, h⟩ | ⟨a, b, d, h⟩ | ⟨a, b, h⟩
  · obtain ⟨m1, h1, h2⟩ := X.consRime hct h
    exact ⟨m1, ⟨c, X.keep (noTone_cons hct a) hc, .inl ⟨a, .inl ⟨X.onsetAt hct b, d, h1⟩⟩⟩, h2.mono (onset_past b)⟩
  · exact ⟨r.mark, ⟨c, X.keep (noTone_cons hct a) hc, .inl ⟨a, .inr ⟨X.wholeAt hct h, d⟩⟩⟩, .inl rfl⟩
  · obtain ⟨m1, h1, h2⟩ := X.eRime hct h
    exact ⟨m1, ⟨_, X.keep (noTone hct (by decide)) hc, .inr (.inl ⟨rfl, a, X.onsetAt hct b, h1⟩)⟩, h2.mono (Nat.le_of_succ_le (onset_past b))⟩
  · obtain ⟨m1, h1, h2⟩ := X.leadRime hct h
    exact ⟨m1, ⟨c, X.keep (noTone_ld hct a) hc, .inr (.inr (.inl ⟨a, b, X.onsetAt hct d, h1⟩))⟩, h2.mono (Nat.le_of_succ_le (onset_past d))⟩
  · refine ⟨r.mark, ⟨c, X.keep (noTone hct ?_) hc, .inr (.inr (.inr ⟨a, b, X.ruRime hct h⟩))⟩, .inl rfl⟩
    rcases a with rfl | rfl <;> decide

omit hct
variable {i : Nat}

/-! ## Readings -/

theorem textAt (h : TextAt ct w i) : TextAt ct w' i := by
  obtain ⟨c, h1, h2⟩ := h
  obtain ⟨c', h3, h4⟩ := X.get h1
  refine ⟨c', h3, ?_⟩
  rcases h4 with rfl | h4
  · exact h2
  · exact .inr (.inr (.inl h4.2))

theorem textAt_iff : TextAt ct w i ↔ TextAt ct w' i := ⟨X.textAt, X.symm.textAt⟩

theorem tokenTo_iff {brk : List Int} {p : Nat} : TokenTo ct w brk p t ↔ TokenTo ct w' brk p t := by
  unfold TokenTo nextBreak
  simp only [X.textAt_iff, X.len]

theorem otherTo {p q : Nat} (h : OtherTo ct w p q) : OtherTo ct w' p q := by
  unfold OtherTo at h ⊢
  simpa only [X.textAt_iff, X.len] using h

omit X in
theorem piece_eq {p q : Nat} (h : ∀ i, p ≤ i → i < q → w[i]? = w'[i]?) : piece w p q = piece w' p q := by
  refine List.ext_getElem? fun i => ?_
  unfold piece
  rw [List.getElem?_take, List.getElem?_take]
  split
  · rw [List.getElem?_drop, List.getElem?_drop]; exact h _ (by omega) (by omega)
  · rfl

theorem other_piece {p q : Nat} (h : OtherTo ct w p q) : piece w p q = piece w' p q := by
  refine piece_eq fun i h1 h2 => ?_
  have hn := h.2.2.1 i h1 h2
  cases hc : w[i]? with
  | none => rw [eq_comm, List.getElem?_eq_none_iff, ← X.len]; exact List.getElem?_eq_none_iff.mp hc
  | some c =>
    refine (X.keep ?_ hc).symm
    cases ht : ct.isTone c with
    | false => rfl
    | true => exact absurd ⟨c, hc, .inr (.inr (.inl ht))⟩ hn

section
variable (hct : ct.Ok)
include hct

theorem isAbbr {p e : Nat} (h : IsAbbr ct w p t e) : IsAbbr ct w' p t e where
  start := h.start.imp_right (Or.imp (X.keep (noTone hct (by decide))) (X.keep (noTone hct (by decide))))
  le := h.le
  shape := by
    have hc : ∀ {i}, (∃ c, w[i]? = some c ∧ ct.isCons c = true) → ∃ c, w'[i]? = some c ∧ ct.isCons c = true :=
      fun ⟨c, h1, h2⟩ => ⟨c, X.keep (noTone_cons hct h2) h1, h2⟩
    rcases h.shape with ⟨n, h1, h2, h3, h4⟩ | ⟨h1, h2, h3⟩
    · exact .inl ⟨n, h1, h2, fun i a b => hc (h3 i a b), X.keep (noTone hct (by decide)) h4⟩
    · exact .inr ⟨h1, h2, hc h3⟩

theorem abbr_piece {p e : Nat} (h : IsAbbr ct w p t e) : piece w p e = piece w' p e := by
  refine piece_eq fun i h1 h2 => ?_
  have hc : (∃ c, w[i]? = some c ∧ ct.isCons c = true) → w[i]? = w'[i]? :=
    fun ⟨c, h1, h2⟩ => by rw [h1, X.keep (noTone_cons hct h2) h1]
  rcases h.shape with ⟨n, -, h3, h4, h5⟩ | ⟨h3, -, h5⟩
  · by_cases hi : i = p + n
    · rw [hi, h5, X.keep (noTone hct (by decide)) h5]
    · exact hc (h4 i h1 (by omega))
  · obtain rfl : i = p := by omega
    exact hc h5

theorem abbrNames {p e : Nat} {new : List (Entry Syl)} (ha : IsAbbr ct w p t e) (h : AbbrNames w p e new) : AbbrNames w' p e new := by
  have hd : w[p]? = some ch!"." ↔ w'[p]? = some ch!"." :=
    ⟨X.keep (noTone hct (by decide)), X.symm.keep (noTone hct (by decide))⟩
  unfold AbbrNames at h ⊢
  rw [← X.abbr_piece hct ha]
  exact h.imp (And.imp_left hd.mp) (And.imp_left (mt hd.mpr))

theorem wordAt {look : List Nat → Option Str} (hl : ∀ p q, p < q → q ≤ w.length → look (piece w p q) = look (piece w' p q))
    {p q : Nat} {data : Str} (h : WordAt ct w look p t q data) : WordAt ct w' look p t q data := by
  obtain ⟨h1, h2, h3, h4, h5⟩ := h
  refine ⟨h1, X.len ▸ h2, (hl p q h1 h2).symm.trans h3, h4, h5.imp_right fun h => ?_⟩
  rw [← X.len]
  exact X.startAt hct h

end

end Spec.Exchanged

/-- The same edge in the other text. -/
def ReEdge (w w' : U16Str) (e e' : Entry Syl) : Prop :=
  e'.key = e.key ∧ e'.target = e.target ∧ Retoned w w' e.key e.target e.val e'.val

theorem ReEdge.same (e : Entry Syl) : ReEdge w w' e e := ⟨rfl, rfl, .inl (LawfulCppEq.refl _)⟩

theorem reEdges_same : ∀ es : List (Entry Syl), List.Forall₂ (ReEdge w w') es es
  | [] => .nil
  | e :: es => .cons (.same e) (reEdges_same es)

theorem ReEdge.stretch {p : Nat} {e e' : Entry Syl} (h : ReEdge w w' e e') : ReEdge w w' (Spec.stretch p e) (Spec.stretch p e') := by
  obtain ⟨h1, h2, h3⟩ := h
  unfold Spec.stretch
  rw [h2]
  split
  · refine ⟨h1, rfl, ?_⟩
    rcases h3 with h3 | ⟨cls, m, m', ⟨q, c, c', a1, a2, a3⟩, b, d, f⟩
    · exact .inl h3
    · refine .inr ⟨cls, m, m', ⟨q, c, c', a1, ?_, a3⟩, b, d, f⟩
      show _ < place ((p : Int) + 1)
      rw [‹e.target = (p : Int)›, place_nat] at a2
      have := place_nat (p + 1)
      push_cast at this
      rw [this]
      omega
  · exact ⟨h1, h2, h3⟩

theorem reSpelled (hct : ct.Ok) {brk : List Int} {p : Nat} {l : Bool} {o : Onset} {r : Rime} {m1 : Tone}
    (ht : TokenTo ct w brk p t) (h : Spelled ct w t p l o r) (hm : Mk w w' (p + 1) r.stop r.mark m1) :
    List.Forall₂ (ReEdge w w') (spelledEdges p o r) (spelledEdges p o (rm r m1)) := by
  obtain ⟨h1, h2, -⟩ := spelled_emit hct ht h
  have key : ∀ a : Int, place a ≤ 2 * p + 2 → ReEdge w w' ⟨a, r.stop, spoken o r⟩ ⟨a, r.stop, spoken o (rm r m1)⟩ := by
    intro a ha
    refine ⟨rfl, rfl, ?_⟩
    rcases hm with hm | ⟨q, c, c', k1, k2, k3⟩
    · left
      subst hm
      exact LawfulCppEq.refl _
    · right
      exact ⟨o.cls, r.mark, m1, ⟨q, c, c', by show place a ≤ _; omega, by show _ < place (r.stop : Int); rw [place_nat]; omega, k3⟩, rfl, rfl,
        LawfulCppEq.refl _⟩
  unfold spelledEdges
  cases o.pre with
  | none => exact .cons (key p (by rw [place_nat]; omega)) .nil
  | some pre => exact .cons (.same _) (.cons (key _ (by rw [place_span h1 (by omega)]; omega)) .nil)

section
variable (hct : ct.Ok) (X : Exchanged ct w w') {look : List Nat → Option Str} {brk : List Int}
  (hl : ∀ p q, p < q → q ≤ w.length → look (piece w p q) = look (piece w' p q))
include hct X hl

theorem reRule {c c1 : Config} (h : Rule ct w look brk c c1) {es' : List (Entry Syl)} (he : List.Forall₂ (ReEdge w w') c.edges es') :
    ∃ es1', Rule ct w' look brk ⟨c.pos, c.linked, es'⟩ ⟨c1.pos, c1.linked, es1'⟩ ∧ List.Forall₂ (ReEdge w w') c1.edges es1' := by
  have hl' : ∀ p q, p < q → q ≤ w'.length → look (piece w' p q) = look (piece w p q) :=
    fun p q h1 h2 => (hl p q h1 (X.len ▸ h2)).symm
  have hno : ∀ {p t}, (∀ q data, ¬ WordAt ct w look p t q data) → ∀ q data, ¬ WordAt ct w' look p t q data :=
    fun h q data hw => h q data (X.symm.wordAt hct hl' hw)
  have hna : ∀ {p t}, (∀ q, ¬ IsAbbr ct w p t q) → ∀ q, ¬ IsAbbr ct w' p t q := fun h q hw => h q (X.symm.isAbbr hct hw)
  cases h with
  | other h => exact ⟨_, .other (X.otherTo h), by
      rw [← X.other_piece h]
      exact List.rel_append he (reEdges_same _)⟩
  | word h1 h2 h3 h4 => exact ⟨_, .word (X.tokenTo_iff.mp h1) (X.wordAt hct hl h2) h3 h4, List.rel_append he (reEdges_same _)⟩
  | abbr h1 h2 h3 h4 =>
    exact ⟨_, .abbr (X.tokenTo_iff.mp h1) (hno h2) (X.isAbbr hct h3) (X.abbrNames hct h3 h4), List.rel_append he (reEdges_same _)⟩
  | syl h1 h2 h3 h4 =>
    obtain ⟨m1, k1, k2⟩ := X.spelled hct h4
    have hr := Rule.syl (es := es') (X.tokenTo_iff.mp h1) (hno h2) (hna h3) k1
    exact ⟨_, hr, List.rel_append he (reSpelled hct h1 h4 k2)⟩
  | dot h1 h2 h3 h4 =>
    refine ⟨_, .dot (X.tokenTo_iff.mp h1) (hno h2) (hna h3) (X.keep (noTone hct (by decide)) h4), ?_⟩
    rw [List.forall₂_map_left_iff, List.forall₂_map_right_iff]
    exact he.imp fun _ _ => ReEdge.stretch

theorem reDeriv {c : Config} (h : RuleDeriv ct w look brk c) :
    ∃ es', RuleDeriv ct w' look brk ⟨c.pos, c.linked, es'⟩ ∧ List.Forall₂ (ReEdge w w') c.edges es' := by
  induction h with
  | refl => exact ⟨[], .refl, .nil⟩
  | tail _ h ih =>
    obtain ⟨es', h1, h2⟩ := ih
    obtain ⟨es1', h3, h4⟩ := reRule hct X hl h h2
    exact ⟨es1', h1.tail h3, h4⟩

theorem reReading {es : List (Entry Syl)} (h : RuleReading ct w look brk es) :
    ∃ es', RuleReading ct w' look brk es' ∧ List.Forall₂ (ReEdge w w') es es' := by
  obtain ⟨c, h1, h2, rfl⟩ := h
  obtain ⟨es', h3, h4⟩ := reDeriv hct X hl h1
  exact ⟨es', ⟨_, h3, X.len ▸ h2, rfl⟩, h4⟩

theorem reDeadEnd {c : Config} (h : DeadEnd ct w look brk c) : ∃ c', DeadEnd ct w' look brk c' := by
  obtain ⟨h1, h2, ⟨x, h3, h4, h5⟩, t, h6, h7⟩ := h
  obtain ⟨es', k1, -⟩ := reDeriv hct X hl h1
  exact ⟨_, k1, by rw [← X.len]; exact h2, ⟨x, X.keep (noTone_ld hct h4) h3, h4, h5⟩, t, X.tokenTo_iff.mp h6, fun q data hw =>
    h7 q data (X.symm.wordAt hct (fun p q h1 h2 => (hl p q h1 (X.len ▸ h2)).symm) hw)⟩

theorem reEdge {a b : Int} {x : Syl} (h : ReadEdge ct w look brk a b x) :
    ∃ x', ReadEdge ct w' look brk a b x' ∧ x'.endPos = b ∧ Retoned w w' a b x x' := by
  obtain ⟨es, h1, e, h2, rfl, rfl, h3⟩ := h
  obtain ⟨es', h4, h5⟩ := reReading hct X hl h1
  obtain ⟨e', h6, k1, k2, k3⟩ : ∃ e' ∈ es', ReEdge w w' e e' := by
    clear h1 h4
    induction h5 with
    | nil => cases h2
    | cons h _ ih =>
      rcases List.mem_cons.mp h2 with rfl | h2
      · exact ⟨_, List.mem_cons_self, h⟩
      · obtain ⟨e', h, h'⟩ := ih h2; exact ⟨e', List.mem_cons_of_mem _ h, h'⟩
  refine ⟨e'.val.setEndPos e.target, ⟨es', h4, e', h6, k1, k2, ceq_setEndPos _ _⟩, rfl, ?_⟩
  rcases k3 with k3 | ⟨cls, m, m', hb, hlit, htone, hx⟩
  · exact .inl (LawfulCppEq.trans (LawfulCppEq.symm h3) k3)
  · obtain ⟨g1, g2⟩ := (Syl.eq_iff _ _).mp h3
    obtain ⟨f1, f2, f3, f4, f5⟩ := g2 (by unfold Syl.isLiteral; rw [hlit]; rfl)
    refine .inr ⟨cls, m, m', hb, g1 ▸ hlit, by rw [← f5, ← f3, ← f4]; exact htone, ?_⟩
    refine LawfulCppEq.trans (LawfulCppEq.symm (ceq_setEndPos _ _)) (LawfulCppEq.trans hx ?_)
    rw [show ∀ a b : Syl, ceq a b = Syl.eq a b from fun _ _ => rfl, Syl.eq_iff]
    exact ⟨g1, fun _ => ⟨f1, f2, f3, f4, by rw [f3, f4]⟩⟩

theorem reRoute : ∀ (s : List Syl) {a b : Int}, Route (ReadEdge ct w look brk) a b s →
    ∃ s', Route (ReadEdge ct w' look brk) a b s' ∧ RetonedPron w w' a s s'
  | [], _, _, h => ⟨[], h, trivial⟩
  | x :: s, _, _, h => by
    obtain ⟨h1, h2⟩ := h
    obtain ⟨x', k1, k2, k3⟩ := reEdge hct X hl h1
    obtain ⟨s', l1, l2⟩ := reRoute s h2
    exact ⟨x' :: s', ⟨by rw [k2]; exact k1, by rw [k2]; exact l1⟩, k2, k3, l2⟩

end

theorem RetonedPron.congr : ∀ {s s' s2 : List Syl} {a : Int}, RetonedPron w w' a s s' → SamePron s2 s' → RetonedPron w w' a s s2
  | [], [], _, _, _, h' => by cases h'; trivial
  | x :: s, x' :: s', _, _, h, h' => by
    cases h' with
    | cons k k' =>
      refine ⟨k.2.trans h.1, ?_, RetonedPron.congr h.2.2 k'⟩
      rcases h.2.1 with g | ⟨cls, m, m', g1, g2, g3, g4⟩
      · exact .inl (LawfulCppEq.trans g (LawfulCppEq.symm k.1))
      · exact .inr ⟨cls, m, m', g1, g2, g3, LawfulCppEq.trans k.1 g4⟩
  | [], _ :: _, _, _, h, _ => h.elim
  | _ :: _, [], _, _, h, _ => h.elim

end Thpronun
