import Verif.Spec.RuLong
import Verif.Lemmas.Mute

/-! # Lemmas on texts that differ in the sign of length after ฤ and ฦ only -/

namespace Thpronun
open Res Spec DAG

variable {ct : CType} {w w' : U16Str} {t : Nat}

/-- The same character, or one sign for the other. -/
def RuKin (c c' : Nat) : Prop := c = c' ∨ (c ∈ ruTails ∧ c' ∈ ruTails)

namespace RuKin
variable {c c' : Nat}

theorem list (h : RuKin c c') {s : U16Str} (hs : ∀ x ∈ ruTails, x ∉ s) : c ∈ s ↔ c' ∈ s := by
  rcases h with rfl | ⟨h1, h2⟩
  · exact Iff.rfl
  · exact ⟨fun h => absurd h (hs c h1), fun h => absurd h (hs c' h2)⟩

theorem one (h : RuKin c c') {x : Nat} (hs : x ∉ ruTails) : c = x ↔ c' = x := by
  rcases h with rfl | ⟨h1, h2⟩
  · exact Iff.rfl
  · exact ⟨fun h => absurd (h ▸ h1) hs, fun h => absurd (h ▸ h2) hs⟩

end RuKin

theorem noTail_of {c : Nat} (h : c ≠ 0x0e45 ∧ c ≠ 0x0e32) : c ∉ ruTails := by
  rw [show ruTails = [0x0e45, 0x0e32] from by decide, List.mem_cons, List.mem_singleton]
  exact not_or.mpr h

/-- The two texts differ in the two signs only. -/
structure RuTwin (ct : CType) (w w' : U16Str) : Prop where
  ok : ct.Ok
  cl : RuClassed ct
  ex : RuExchange w w'

namespace RuTwin

section
variable (X : RuTwin ct w w')
include X

theorem len : w.length = w'.length := X.ex.1

theorem get {i c : Nat} (h : w[i]? = some c) : ∃ c', w'[i]? = some c' ∧ RuKin c c' := by
  rcases X.ex.2 i with k | ⟨c1, h3, c', h4, h1, h2, -⟩
  · exact ⟨c, k ▸ h, .inl rfl⟩
  · rw [h1] at h; cases h; exact ⟨c', h2, .inr ⟨h3, h4⟩⟩

theorem getAt {i c : Nat} (h : At w t i c) : ∃ c', At w' t i c' ∧ RuKin c c' := by
  obtain ⟨c', h1, h2⟩ := X.get h.2
  exact ⟨c', ⟨h.1, h1⟩, h2⟩

theorem keep {i c : Nat} (hc : c ∉ ruTails) (h : w[i]? = some c) : w'[i]? = some c := by
  obtain ⟨c', h1, h2⟩ := X.get h
  rw [h1, (h2.one hc).mp rfl]

theorem symm : RuTwin ct w' w :=
  ⟨X.ok, X.cl, X.ex.1.symm, fun i => (X.ex.2 i).imp Eq.symm fun ⟨c, h1, c', h2, h3, h4, j, h5, r, h6, h7⟩ =>
    ⟨c', h2, c, h1, h4, h3, j, h5, r, h6, X.keep ((by decide : ∀ r ∈ u!"ฤฦ", r ∉ ruTails) r h6) h7⟩⟩

theorem lit {i c : Nat} (hc : c ∉ ruTails) (h : At w t i c) : At w' t i c := ⟨h.1, X.keep hc h.2⟩

theorem noTail_cons {c : Nat} (h : ct.isCons c = true) : c ∉ ruTails := by
  have := X.ok.cons c h
  exact noTail_of (by omega)

theorem noTail_tone {c : Nat} (h : ct.isTone c = true) : c ∉ ruTails := by
  have := X.ok.tone c h
  exact noTail_of (by omega)

theorem noTail_ld {c : Nat} (h : ct.isLdVowel c = true) : c ∉ ruTails := by
  have := X.ok.ld c h
  exact noTail_of (by omega)

theorem cons {i c : Nat} (hc : ct.isCons c = true) (h : At w t i c) : At w' t i c := X.lit (X.noTail_cons hc) h

theorem kcons {i c : Nat} (hc : ct.isCons c = true) (h : w[i]? = some c) : w'[i]? = some c := X.keep (X.noTail_cons hc) h

end

/-- After a consonant or a tone mark the texts are the same. -/
theorem after (X : RuTwin ct w w') {i c c1 : Nat} (h : w[i]? = some c) (hc : ct.isCons c = true ∨ ct.isTone c = true)
    (h1 : At w t (i + 1) c1) : At w' t (i + 1) c1 := by
  refine ⟨h1.1, ?_⟩
  rcases X.ex.2 (i + 1) with e | ⟨-, -, -, -, -, -, j, hj, r, hr, h2⟩
  · rw [← e]; exact h1.2
  · obtain rfl : i = j := by omega
    rw [h] at h2; cases h2
    have hr' : c = 0x0e24 ∨ c = 0x0e26 := by
      rw [show u!"ฤฦ" = [0x0e24, 0x0e26] from by decide, List.mem_cons, List.mem_singleton] at hr
      exact hr
    rcases hc with hc | hc
    · have := X.ok.cons c hc; omega
    · have := X.ok.tone c hc; omega

theorem lit_iff (X : RuTwin ct w w') {i c : Nat} (hc : c ∉ ruTails) : At w t i c ↔ At w' t i c := ⟨X.lit hc, X.symm.lit hc⟩

theorem startAt (X : RuTwin ct w w') {i : Nat} (h : StartAt ct w t i) : StartAt ct w' t i := by
  obtain ⟨c, h, hc⟩ := h
  obtain ⟨c', h1, rfl | h2⟩ := X.getAt h
  · exact ⟨c, h1, hc⟩
  · exact absurd h2.1 (hc.elim X.noTail_cons X.noTail_ld)

theorem startAt_iff (X : RuTwin ct w w') {i : Nat} : StartAt ct w t i ↔ StartAt ct w' t i := ⟨X.startAt, X.symm.startAt⟩

theorem endOrStart_iff (X : RuTwin ct w w') {i : Nat} : EndOrStart ct w t i ↔ EndOrStart ct w' t i := by
  unfold EndOrStart; rw [X.startAt_iff]

theorem silent (X : RuTwin ct w w') {i : Nat} (h : Silent ct w t i) : Silent ct w' t i := by
  obtain ⟨c, h, hc, h'⟩ := h
  exact ⟨c, X.cons hc h, hc, X.lit (by decide) h'⟩

theorem silent_iff (X : RuTwin ct w w') {i : Nat} : Silent ct w t i ↔ Silent ct w' t i := ⟨X.silent, X.symm.silent⟩

theorem noTail_iu {d : Nat} (h : IU d) : d ∉ ruTails := by rcases h with rfl | rfl <;> decide

theorem silent2 (X : RuTwin ct w w') {i : Nat} {A : Nat → Prop} (hA : ∀ d, A d → d ∉ ruTails)
    (h : Silent2 ct w t A i) : Silent2 ct w' t A i := by
  obtain ⟨c, d, h, hc, h', hd, h''⟩ := h
  exact ⟨c, d, X.cons hc h, hc, X.lit (hA d hd) h', hd, X.lit (by decide) h''⟩

theorem silent2_iu (X : RuTwin ct w w') {i : Nat} : Silent2 ct w t IU i ↔ Silent2 ct w' t IU i :=
  ⟨X.silent2 fun _ => noTail_iu, X.symm.silent2 fun _ => noTail_iu⟩

theorem silent2_any (X : RuTwin ct w w') {i : Nat} :
    Silent2 ct w t (fun d => ct.isCons d = true ∨ IU d) i ↔ Silent2 ct w' t (fun d => ct.isCons d = true ∨ IU d) i :=
  ⟨X.silent2 fun _ h => h.elim X.noTail_cons noTail_iu, X.symm.silent2 fun _ h => h.elim X.noTail_cons noTail_iu⟩

theorem skip_iff (X : RuTwin ct w w') {i k : Nat} : Skip ct w t i k ↔ Skip ct w' t i k := by
  unfold Skip; rw [X.silent_iff]

theorem skipIU_iff (X : RuTwin ct w w') {i k : Nat} : SkipIU ct w t i k ↔ SkipIU ct w' t i k := by
  unfold SkipIU; rw [X.silent2_iu]

theorem skipAny_iff (X : RuTwin ct w w') {i k : Nat} : SkipAny ct w t i k ↔ SkipAny ct w' t i k := by
  unfold SkipAny; rw [X.silent_iff, X.silent2_any]

theorem finalAt (X : RuTwin ct w w') {i : Nat} {e c f} (h : FinalAt ct w t i e c f) : FinalAt ct w' t i e c f :=
  ⟨X.cons h.2.1 h.1, h.2⟩

theorem anyFinal_iff (X : RuTwin ct w w') {i : Nat} : (∃ d f, FinalAt ct w t i [] d f) ↔ ∃ d f, FinalAt ct w' t i [] d f :=
  ⟨Exists.imp fun _ => Exists.imp fun _ => X.finalAt, Exists.imp fun _ => Exists.imp fun _ => X.symm.finalAt⟩

theorem closed (X : RuTwin ct w w') {i e k b f} (h : Closed ct w t i e k b f) : Closed ct w' t i e k b f := by
  obtain ⟨c, h1, h2, h3⟩ := h
  exact ⟨c, X.finalAt h1, h2, X.skipAny_iff.mp h3⟩

theorem silentTail (X : RuTwin ct w w') {i c : Nat} (h : SilentTail ct w t i c) : SilentTail ct w' t i c :=
  ⟨X.endOrStart_iff.mp h.1, h.2.imp (And.imp_left (X.lit (by decide)))
    fun ⟨d, h1, h2, h3⟩ => ⟨d, X.lit (noTail_iu h2) h1, h2, h3⟩⟩

theorem links (X : RuTwin ct w w') {i c : Nat} (hi : w[i]? = some c) (hc : ct.isCons c = true) (h : Links ct w t i c) :
    Links ct w' t i c := by
  rcases h with ⟨d, n, h1, h2, h3, h4⟩ | ⟨d, h1, h2, h3, h4⟩
  · exact .inl ⟨d, n, X.cons h2 h1, h2, X.after h1.2 (.inl h2) h3, h4⟩
  · exact .inr ⟨d, X.after hi (.inl hc) h1, h2, h3, h4⟩

theorem closedX (X : RuTwin ct w w') {i e k b f} (h : ClosedX ct w t i e k b f) : ClosedX ct w' t i e k b f := by
  obtain ⟨c, h1, h2⟩ := h
  exact ⟨c, X.finalAt h1, h2.imp (And.imp_right X.skipAny_iff.mp)
    (And.imp X.skipAny_iff.mp (Or.imp (And.imp_right (And.imp_right X.silentTail)) (And.imp_right (And.imp_right (X.links h1.1.2 h1.2.1)))))⟩

theorem long_iff (X : RuTwin ct w w') {i : Nat} :
    (At w t i ch!"ๅ" ∨ At w t i ch!"า") ↔ (At w' t i ch!"ๅ" ∨ At w' t i ch!"า") := by
  have key : ∀ {w w' : U16Str}, RuTwin ct w w' → (At w t i ch!"ๅ" ∨ At w t i ch!"า") → (At w' t i ch!"ๅ" ∨ At w' t i ch!"า") := by
    intro w w' X h
    have : ∃ c ∈ ruTails, At w t i c := h.elim (fun h => ⟨_, by decide, h⟩) fun h => ⟨_, by decide, h⟩
    obtain ⟨c, hc, h⟩ := this
    obtain ⟨c', h1, h2⟩ := X.getAt h
    have h3 : c' ∈ ruTails := by
      rcases h2 with rfl | h2
      · exact hc
      · exact h2.2
    rw [show ruTails = [ch!"ๅ", ch!"า"] from rfl, List.mem_cons, List.mem_singleton] at h3
    rcases h3 with rfl | rfl
    · exact .inl h1
    · exact .inr h1
  exact ⟨key X, key X.symm⟩

theorem ruAt_iff (X : RuTwin ct w w') {i : Nat} : RuAt w t i ↔ RuAt w' t i := by
  unfold RuAt
  rw [← not_or, ← not_or, X.lit_iff (i := i + 1) (by decide), X.long_iff]

theorem withRu (X : RuTwin ct w w') {i c snd cls o} (h : WithRu ct w t i c snd cls o) : WithRu ct w' t i c snd cls o := by
  unfold WithRu at h ⊢
  simp only [X.anyFinal_iff] at h ⊢
  exact h

theorem onsetAt (X : RuTwin ct w w') {i l o} (h : OnsetAt ct w t i l o) : OnsetAt ct w' t i l o := by
  obtain ⟨c, snd, cls, h1, h2, h3⟩ := h
  refine ⟨c, snd, cls, X.kcons h2.1 h1, h2, h3.imp_right (Or.imp ?_ ?_)⟩
  · rintro ⟨d, s2, c2, k1, k2, k3, k4⟩
    exact ⟨d, s2, c2, X.cons k2.1 k1, k2, fun k => k3 ⟨k.1, X.symm.lit (by decide) k.2⟩, k4⟩
  · exact fun ⟨a, b⟩ => ⟨X.ruAt_iff.mp a, X.withRu b⟩

/-- After an onset the texts are the same. -/
theorem afterOnset (X : RuTwin ct w w') {i l o c1} (h : OnsetAt ct w t i l o) (h1 : At w t o.stop c1) : At w' t o.stop c1 := by
  obtain ⟨c, snd, cls, h2, h3, h⟩ := h
  rcases h with rfl | ⟨d, s2, c2, a, b, -, h⟩ | ⟨a, h⟩
  · exact X.after h2 (.inl h3.1) h1
  · have : o.stop = i + 2 := by
      rcases h with ⟨cs, s, -, -, -, rfl⟩ | ⟨-, -, -, rfl⟩ | ⟨-, -, rfl⟩ | rfl <;> rfl
    rw [this] at h1 ⊢
    exact X.after a.2 (.inl b.1) h1
  · have : o.stop = i + 2 := by
      dsimp only [WithRu] at h
      rcases h with ⟨-, rfl⟩ | ⟨-, rfl | rfl⟩ | ⟨-, rfl⟩ | ⟨-, rfl⟩ | ⟨-, -, rfl⟩ | ⟨-, v, -, ⟨-, rfl⟩ | rfl⟩ <;> rfl
    rw [this] at h1 ⊢
    refine X.lit (fun hm => ?_) h1
    rw [show ruTails = [ch!"ๅ", ch!"า"] from rfl, List.mem_cons, List.mem_singleton] at hm
    rcases hm with rfl | rfl
    · exact a.2.1 h1
    · exact a.2.2 h1

/-- After an onset and an optional tone mark the texts are the same. -/
theorem afterMark (X : RuTwin ct w w') {i l o m k c1} (h : OnsetAt ct w t i l o) (hm : MarkAt ct w t o.stop m k)
    (h1 : At w t k c1) : At w' t k c1 := by
  rcases hm with ⟨c, h2, h3, -, rfl⟩ | ⟨-, -, rfl⟩
  · exact X.after h2.2 (.inr h3) h1
  · exact X.afterOnset h h1

theorem wholeAt (X : RuTwin ct w w') {i o r} (h : WholeAt ct w t i o r) : WholeAt ct w' t i o r := by
  obtain ⟨c, snd, cls, h1, h2, h3⟩ := h
  refine ⟨c, snd, cls, X.kcons h2.1 h1, h2, ?_⟩
  rcases h3 with ⟨a, h⟩ | ⟨a, b, d, e, h⟩ | ⟨a, b, d, h⟩ | ⟨a, b, h⟩
  · exact .inl ⟨X.startAt a, h⟩
  · exact .inr (.inl ⟨a, X.lit (by decide) b, d, e.imp (X.lit (by decide)) (X.lit (by decide)), h⟩)
  · exact .inr (.inr (.inl ⟨X.lit (by decide) a, b, mt (X.symm.lit (by decide)) d,
      h.imp (And.imp_left X.startAt) (Or.imp (And.imp_left (X.lit (by decide))) (And.imp_left (X.lit (by decide))))⟩))
  · refine .inr (.inr (.inr ⟨X.ruAt_iff.mp a, ?_, h⟩))
    rw [← X.anyFinal_iff]
    exact b

end RuTwin

/-! ## Rimes -/

namespace RuTwin
variable (X : RuTwin ct w w') {r : Rime}
include X

theorem open_ {j v f m} (h : Open ct w t j v f m r) : Open ct w' t j v f m r := by
  obtain ⟨k, h1, rfl⟩ := h
  exact ⟨k, X.skip_iff.mp h1, rfl⟩

theorem shut_ {j e v m} (h : Shut ct w t j e v m r) : Shut ct w' t j e v m r := by
  obtain ⟨k, b, f, h1, rfl⟩ := h
  exact ⟨k, b, f, X.closed h1, rfl⟩

theorem shutX_ {j e v m} (h : ShutX ct w t j e v m r) : ShutX ct w' t j e v m r := by
  obtain ⟨k, b, f, h1, rfl⟩ := h
  exact ⟨k, b, f, X.closedX h1, rfl⟩

theorem skipShut {j v m} (h : ∃ k', Skip ct w t j k' ∧ Shut ct w t k' [] v m r) :
    ∃ k', Skip ct w' t j k' ∧ Shut ct w' t k' [] v m r :=
  h.imp fun _ => And.imp X.skip_iff.mp X.shut_

theorem skipShutX {j v m} (h : ∃ k', Skip ct w t j k' ∧ ShutX ct w t k' [] v m r) :
    ∃ k', Skip ct w' t j k' ∧ ShutX ct w' t k' [] v m r :=
  h.imp fun _ => And.imp X.skip_iff.mp X.shutX_

theorem markAt {i k : Nat} {m : Tone} (h : MarkAt ct w t i m k) : MarkAt ct w' t i m k := by
  rcases h with ⟨c, h1, h2, h3⟩ | ⟨h1, h2⟩
  · exact .inl ⟨c, X.lit (X.noTail_tone h2) h1, h2, h3⟩
  · refine .inr ⟨fun c hc => ?_, h2⟩
    cases hc' : ct.isTone c with
    | false => rfl
    | true => rw [← hc']; exact h1 c (lit X.symm (X.noTail_tone hc') hc)

theorem hanRime {j} (h : HanRime ct w t j r) : HanRime ct w' t j r := by
  obtain ⟨h0, m, k, hm, h⟩ := h
  refine ⟨X.lit (by decide) h0, m, k, X.markAt hm, ?_⟩
  have la : ∀ {i}, At w t i ch!"ะ" ↔ At w' t i ch!"ะ" := X.lit_iff (by decide)
  have lw : At w t k ch!"ว" ↔ At w' t k ch!"ว" := X.lit_iff (by decide)
  exact h.imp (And.imp lw.mp (And.imp la.mp X.open_)) (Or.imp (And.imp lw.mp (And.imp (mt la.mpr) X.open_))
    (Or.imp (And.imp (mt lw.mpr) (And.imp_right X.shutX_)) (And.imp (mt lw.mpr) (And.imp_right X.shut_))))

theorem ld_none {k} (h : ∀ c, At w t k c → ct.isLdVowel c = false) : ∀ c, At w' t k c → ct.isLdVowel c = false := by
  intro c hc
  cases hl : ct.isLdVowel c with
  | false => rfl
  | true => rw [h c (lit X.symm (X.noTail_ld hl) hc)] at hl; cases hl

theorem ld_other {k} (h : ∃ c, At w t k c ∧ ct.isLdVowel c = false) : ∃ c, At w' t k c ∧ ct.isLdVowel c = false := by
  obtain ⟨c, h1, h2⟩ := h
  obtain ⟨c', h3, rfl | h4⟩ := X.getAt h1
  · exact ⟨c, h3, h2⟩
  · refine ⟨c', h3, ?_⟩
    cases hl : ct.isLdVowel c' with
    | false => rfl
    | true => exact absurd h4.2 (X.noTail_ld hl)

theorem signFinal {k v m} (h : SignFinal ct w t k v m r) : SignFinal ct w' t k v m r := by
  obtain ⟨h0, h⟩ := h
  have lo : ∀ {i}, At w t i ch!"อ" ↔ At w' t i ch!"อ" := X.lit_iff (by decide)
  exact ⟨X.ld_none h0, h.imp (And.imp_right (And.imp lo.mp X.open_)) (Or.imp (And.imp_right (And.imp (mt lo.mpr) X.shut_))
    (Or.imp (And.imp_right (And.imp_right X.shut_)) (And.imp_right (And.imp_right (And.imp_right X.shutX_)))))⟩

theorem signRime {j} (h : SignRime ct w t j r) : SignRime ct w' t j r := by
  obtain ⟨c, v, m, k, hc, hv, hcv, hm, h⟩ := h
  refine ⟨c, v, m, k, X.lit ?_ hc, hv, hcv, X.markAt hm, ?_⟩
  · exact (by decide : ∀ x ∈ signVowels, x.1 ∉ ruTails) _ hcv
  refine h.imp (And.imp_right (And.imp X.ld_other X.signFinal))
    (And.imp (mt (And.imp_right (ld_other X.symm))) (Or.imp (And.imp X.silent (Or.imp_right X.signFinal)) (Or.imp ?_ ?_)))
  · exact And.imp (mt X.silent_iff.mpr) (And.imp_left X.silent2_iu.mp)
  · exact And.imp (mt X.silent_iff.mpr) (And.imp (mt X.silent2_iu.mpr) (Or.imp_right X.signFinal))

theorem shortORime {j} (h : ShortORime ct w t j r) : ShortORime ct w' t j r :=
  ⟨X.lit (by decide) h.1, X.lit (by decide) h.2.1, X.skipShut h.2.2⟩

theorem roRime {o k m} (h : RoRime ct w t o k m r) : RoRime ct w' t o k m r := by
  refine ⟨X.lit (by decide) h.1, h.2.imp (And.imp_right X.open_) (Exists.imp fun k' h => ?_)⟩
  refine ⟨by rw [← X.skip_iff]; exact h.1, X.lit (by decide) h.2.1, h.2.2.imp X.open_ (And.imp (mt X.silent_iff.mpr) X.shutX_)⟩

theorem plainRime {i o l l'} (ho : OnsetAt ct w t i l' o) (h : PlainRime ct w t o l o.stop r) : PlainRime ct w' t o l o.stop r := by
  obtain ⟨m, k, hm, h⟩ := h
  refine ⟨m, k, X.markAt hm, ?_⟩
  rcases h with ⟨a, h⟩ | ⟨a, h⟩ | ⟨a, h⟩ | ⟨a, h⟩ | ⟨a, h⟩ | h | ⟨a, b, c, h⟩ | ⟨v, c, a, b, d, e, h⟩
  · exact .inl ⟨X.lit (by decide) a, X.open_ h⟩
  · exact .inr (.inl ⟨X.afterMark ho hm a, h.imp X.open_ X.skipShutX⟩)
  · exact .inr (.inr (.inl ⟨X.lit (by decide) a, X.open_ h⟩))
  · exact .inr (.inr (.inr (.inl ⟨X.lit (by decide) a, X.shut_ h⟩)))
  · exact .inr (.inr (.inr (.inr (.inl ⟨X.lit (by decide) a, h.imp X.open_ X.skipShut⟩))))
  · exact .inr (.inr (.inr (.inr (.inr (.inl (X.roRime h))))))
  · exact .inr (.inr (.inr (.inr (.inr (.inr (.inl ⟨a, b, c, X.shut_ h⟩))))))
  · exact .inr (.inr (.inr (.inr (.inr (.inr (.inr ⟨v, c, a, X.cons d b, d, e, h.imp_right X.shutX_⟩))))))

theorem consRime {i o l l'} (ho : OnsetAt ct w t i l' o) (h : ConsRime ct w t o l r) : ConsRime ct w' t o l r :=
  h.imp X.hanRime (Or.imp X.signRime (Or.imp X.shortORime (X.plainRime ho)))

theorem midRime {sign mid short long j full} (h1 : sign ∉ ruTails) (h2 : mid ∉ ruTails)
    (h : MidRime ct w t sign mid short long j full r) : MidRime ct w' t sign mid short long j full r := by
  obtain ⟨h0, m, k, hm, hd, h⟩ := h
  have la : ∀ {i}, At w t i ch!"ะ" ↔ At w' t i ch!"ะ" := X.lit_iff (by decide)
  refine ⟨X.lit h1 h0, m, k, X.markAt hm, X.lit h2 hd, ?_⟩
  refine h.imp (And.imp la.mp X.open_) (And.imp (mt la.mpr) (Or.imp X.open_ fun ⟨k', b, h⟩ => ?_))
  cases full with
  | true => exact ⟨k', X.skip_iff.mp b, X.shutX_ h⟩
  | false => exact ⟨k', X.skip_iff.mp b, X.shut_ h⟩

theorem eRime {i l o} (ho : OnsetAt ct w t i l o) (h : ERime ct w t o r) : ERime ct w' t o r := by
  have la : ∀ {i}, At w t i ch!"ะ" ↔ At w' t i ch!"ะ" := X.lit_iff (by decide)
  rcases h with h | ⟨a, m, k, k', hm, b, h⟩ | h | h | ⟨a, h⟩ | ⟨hlt, m, k, hm, h⟩
  · exact .inl h
  · exact .inr (.inl ⟨X.lit (by decide) a, m, k, k', X.markAt hm, X.skip_iff.mp b, X.shut_ h⟩)
  · exact .inr (.inr (.inl (X.midRime (by decide) (by decide) h)))
  · exact .inr (.inr (.inr (.inl (X.midRime (by decide) (by decide) h))))
  · exact .inr (.inr (.inr (.inr (.inl ⟨X.lit (by decide) a, X.shut_ h⟩))))
  · refine .inr (.inr (.inr (.inr (.inr ⟨hlt, m, k, X.markAt hm, ?_⟩))))
    rcases h with h | ⟨a, h⟩ | ⟨a, b, h⟩ | ⟨a, h⟩ | ⟨a, b, h⟩ | ⟨c, a, b, d, e, n, h⟩
    · exact .inl h
    · exact .inr (.inl ⟨X.lit (by decide) a, h.imp (And.imp_right X.open_) (Or.imp (And.imp la.mp X.open_)
        (And.imp (mt la.mpr) X.open_))⟩)
    · exact .inr (.inr (.inl ⟨la.mp a, b, X.open_ h⟩))
    · exact .inr (.inr (.inr (.inl ⟨X.afterMark ho hm a, h.imp (And.imp la.mp X.open_) (And.imp (mt la.mpr) X.open_)⟩)))
    · exact .inr (.inr (.inr (.inr (.inl ⟨X.lit (by decide) a, X.endOrStart_iff.mp b, X.open_ h⟩))))
    · exact .inr (.inr (.inr (.inr (.inr ⟨c, X.afterMark ho hm a, b, fun h => d ⟨h.1, X.endOrStart_iff.mpr h.2⟩, e, n,
        h.imp X.open_ X.skipShutX⟩))))

theorem aeRime {k m} (h : AeRime ct w t k m r) : AeRime ct w' t k m r := by
  have la : ∀ {i}, At w t i ch!"ะ" ↔ At w' t i ch!"ะ" := X.lit_iff (by decide)
  have lm : ∀ {i}, At w t i ch!"็" ↔ At w' t i ch!"็" := X.lit_iff (by decide)
  exact h.imp (And.imp la.mp X.open_) (Or.imp (And.imp lm.mp X.shut_) (And.imp (mt la.mpr) (And.imp (mt lm.mpr)
    (Or.imp X.open_ X.skipShut))))

theorem oRime {k m} (h : ORime ct w t k m r) : ORime ct w' t k m r := by
  have la : ∀ {i}, At w t i ch!"ะ" ↔ At w' t i ch!"ะ" := X.lit_iff (by decide)
  have s1 : ∀ {i}, Silent ct w t i ↔ Silent ct w' t i := X.silent_iff
  have s2 : ∀ {i}, Silent2 ct w t IU i ↔ Silent2 ct w' t IU i := X.silent2_iu
  refine h.imp (And.imp la.mp (Or.imp (And.imp_left s1.mp) (And.imp (mt s1.mpr) (Exists.imp fun _ => And.imp_left X.skipIU_iff.mp))))
    (And.imp (mt la.mpr) (Or.imp (And.imp s1.mp (Or.imp_right X.shutX_)) (Or.imp ?_ ?_)))
  · exact And.imp (mt s1.mpr) (And.imp_left s2.mp)
  · exact And.imp (mt s1.mpr) (And.imp (mt s2.mpr) (Or.imp_right X.shutX_))

theorem aiRime {b k m} (h : AiRime ct w t b k m r) : AiRime ct w' t b k m r :=
  h.imp X.open_ fun ⟨a, c, d, e⟩ => ⟨a, X.lit (by decide) c, X.endOrStart_iff.mp d, e⟩

theorem ruRime {i} (h : RuRime ct w t i r) : RuRime ct w' t i r := by
  rcases h with h | ⟨a, h⟩ | ⟨d, a, b, h⟩
  · exact .inl h
  · exact .inr (.inl ⟨X.long_iff.mp a, h⟩)
  · refine .inr (.inr ⟨d, X.cons b a, b, ?_⟩)
    simp only [X.startAt_iff] at h
    exact h.imp_right (And.imp_right X.shutX_)

theorem leadRime {v j} (h : LeadRime ct w t v j r) : LeadRime ct w' t v j r := by
  obtain ⟨m, k, hm, h⟩ := h
  exact ⟨m, k, X.markAt hm, h.imp (And.imp_right X.aeRime) (Or.imp (And.imp_right X.oRime) (Or.imp (And.imp_right X.aiRime)
    (And.imp_right X.aiRime)))⟩

theorem spelled {i l o} (h : Spelled ct w t i l o r) : Spelled ct w' t i l o r := by
  obtain ⟨c, hc, h⟩ := h
  rcases h with ⟨a, ⟨b, d, h⟩ | ⟨h, d⟩⟩ | ⟨rfl, a, b, h⟩ | ⟨a, b, d, h⟩ | ⟨a, b, h⟩
  · exact ⟨c, X.kcons a hc, .inl ⟨a, .inl ⟨X.onsetAt b, d, X.consRime b h⟩⟩⟩
  · exact ⟨c, X.kcons a hc, .inl ⟨a, .inr ⟨X.wholeAt h, d⟩⟩⟩
  · exact ⟨_, X.keep (by decide) hc, .inr (.inl ⟨rfl, a, X.onsetAt b, X.eRime b h⟩)⟩
  · exact ⟨c, X.keep (X.noTail_ld a) hc, .inr (.inr (.inl ⟨a, b, X.onsetAt d, X.leadRime h⟩))⟩
  · exact ⟨c, X.keep (by rcases a with rfl | rfl <;> decide) hc, .inr (.inr (.inr ⟨a, b, X.ruRime h⟩))⟩

/-! ## Readings -/

theorem textAt {i : Nat} (h : TextAt ct w i) : TextAt ct w' i := by
  obtain ⟨c, h1, h2⟩ := h
  obtain ⟨c', h3, rfl | h4⟩ := X.get h1
  · exact ⟨c, h3, h2⟩
  · exact ⟨c', h3, .inr (.inl (X.cl c' h4.2))⟩

theorem textAt_iff {i : Nat} : TextAt ct w i ↔ TextAt ct w' i := ⟨X.textAt, textAt X.symm⟩

variable {brk : List Int}

theorem tokenTo_iff {p : Nat} : TokenTo ct w brk p t ↔ TokenTo ct w' brk p t := by
  unfold TokenTo nextBreak
  simp only [X.textAt_iff, X.len]

theorem otherTo {p q : Nat} (h : OtherTo ct w p q) : OtherTo ct w' p q := by
  unfold OtherTo at h ⊢
  simpa only [X.textAt_iff, X.len] using h

theorem other_piece {p q : Nat} (h : OtherTo ct w p q) : piece w p q = piece w' p q := by
  refine Exchanged.piece_eq fun i h1 h2 => ?_
  rcases X.ex.2 i with e | ⟨c, g1, c', g2, g3, g4, -⟩
  · exact e
  · exact absurd ⟨c, g3, .inr (.inl (X.cl c g1))⟩ (h.2.2.1 i h1 h2)

theorem isAbbr {p e : Nat} (h : IsAbbr ct w p t e) : IsAbbr ct w' p t e where
  start := h.start.imp_right (Or.imp (X.keep (by decide)) (X.keep (by decide)))
  le := h.le
  shape := by
    have hc : ∀ {i : Nat}, (∃ c, w[i]? = some c ∧ ct.isCons c = true) → ∃ c, w'[i]? = some c ∧ ct.isCons c = true :=
      fun ⟨c, h1, h2⟩ => ⟨c, X.kcons h2 h1, h2⟩
    rcases h.shape with ⟨n, h1, h2, h3, h4⟩ | ⟨h1, h2, h3⟩
    · exact .inl ⟨n, h1, h2, fun i a b => hc (h3 i a b), X.keep (by decide) h4⟩
    · exact .inr ⟨h1, h2, hc h3⟩

theorem pieces (p q : Nat) : List.Forall₂ RuKin (piece w p q) (piece w' p q) := by
  have h : List.Forall₂ RuKin w w' := by
    refine List.forall₂_iff_get.mpr ⟨X.len, fun i h1 h2 => ?_⟩
    obtain ⟨c', h3, h4⟩ := X.get (List.getElem?_eq_getElem h1)
    rw [List.getElem?_eq_getElem h2] at h3
    cases h3
    exact h4
  exact List.forall₂_take _ (List.forall₂_drop _ h)

/-- A piece with neither of the signs. -/
theorem piece_no {p q : Nat} (h : ∀ c ∈ piece w p q, c ∉ ruTails) : piece w p q = piece w' p q := by
  have := X.pieces p q
  generalize piece w p q = a at h this
  generalize piece w' p q = b at this
  clear * - this h
  induction this with
  | nil => rfl
  | cons h1 _ ih =>
    rw [ih fun c hc => h c (List.mem_cons_of_mem _ hc), (h1.one (h _ (List.mem_cons_self ..))).mp rfl]

theorem wordAt {look : List Nat → Option Str} (hl : ∀ p q, p < q → q ≤ w.length → look (piece w p q) = look (piece w' p q))
    {p q : Nat} {data : Str} (h : WordAt ct w look p t q data) : WordAt ct w' look p t q data := by
  obtain ⟨h1, h2, h3, h4, h5⟩ := h
  refine ⟨h1, X.len ▸ h2, (hl p q h1 h2).symm.trans h3, h4, h5.imp_right fun h => ?_⟩
  rw [← X.len]
  exact X.startAt h

end RuTwin

theorem abbr_noTail (hct : ct.Ok) {p e : Nat} (h : IsAbbr ct w p t e) : ∀ c ∈ piece w p e, c ∉ ruTails := by
  intro c hc
  obtain ⟨i, hi, rfl⟩ := List.getElem_of_mem hc
  have hi' : i < e - p := by
    have : (piece w p e).length ≤ e - p := by unfold piece; rw [List.length_take]; exact Nat.min_le_left _ _
    omega
  have hg : w[p + i]? = some (piece w p e)[i] := by
    rw [← List.getElem?_eq_getElem hi]
    unfold piece
    rw [List.getElem?_take_of_lt hi', List.getElem?_drop]
  have no : ∀ {c : Nat}, ct.isCons c = true → c ∉ ruTails := fun h => noTail_of (by have := hct.cons _ h; omega)
  generalize (piece w p e)[i] = c at hg
  rcases h.shape with ⟨n, -, rfl, h3, h4⟩ | ⟨rfl, -, c', h3, h4⟩
  · rcases Nat.lt_or_ge i n with h5 | h5
    · obtain ⟨c', h6, h7⟩ := h3 (p + i) (by omega) (by omega)
      rw [hg] at h6; cases h6
      exact no h7
    · obtain rfl : i = n := by omega
      rw [hg] at h4; cases h4
      decide
  · obtain rfl : i = 0 := by omega
    rw [Nat.add_zero, h3] at hg; cases hg
    exact no h4

section
variable {look : List Nat → Option Str} {brk : List Int} (X : RuTwin ct w w') 
  (hl : ∀ p q, p < q → q ≤ w.length → look (piece w p q) = look (piece w' p q))
include X hl

theorem ruRule {c c1 : Config} (h : Rule ct w look brk c c1) : Rule ct w' look brk c c1 := by
  have hl' : ∀ p q, p < q → q ≤ w'.length → look (piece w' p q) = look (piece w p q) :=
    fun p q h1 h2 => (hl p q h1 (X.len ▸ h2)).symm
  have hno : ∀ {p t}, (∀ q data, ¬ WordAt ct w look p t q data) → ∀ q data, ¬ WordAt ct w' look p t q data :=
    fun h q data hw => h q data (X.symm.wordAt hl' hw)
  have hna : ∀ {p t : Nat}, (∀ q, ¬ IsAbbr ct w p t q) → ∀ q, ¬ IsAbbr ct w' p t q := fun h q hw => h q (X.symm.isAbbr hw)
  cases h with
  | other h => rw [X.other_piece h]; exact .other (X.otherTo h)
  | word h1 h2 h3 h4 => exact .word (X.tokenTo_iff.mp h1) (X.wordAt hl h2) h3 h4
  | @abbr p l es t q new h1 h2 h3 h4 =>
    refine .abbr (X.tokenTo_iff.mp h1) (hno h2) (X.isAbbr h3) ?_
    have hd : w[p]? = some ch!"." ↔ w'[p]? = some ch!"." := ⟨X.keep (by decide), X.symm.keep (by decide)⟩
    unfold AbbrNames at h4 ⊢
    rw [← X.piece_no (abbr_noTail X.ok h3)]
    exact h4.imp (And.imp_left hd.mp) (And.imp_left (mt hd.mpr))
  | syl h1 h2 h3 h4 => exact .syl (X.tokenTo_iff.mp h1) (hno h2) (hna h3) (X.spelled h4)
  | dot h1 h2 h3 h4 => exact .dot (X.tokenTo_iff.mp h1) (hno h2) (hna h3) (X.keep (by decide) h4)

theorem ruDeriv {c : Config} (h : RuleDeriv ct w look brk c) : RuleDeriv ct w' look brk c := by
  induction h with
  | refl => exact .refl
  | tail _ h ih => exact ih.tail (ruRule X hl h)

theorem ruReading {es : List (Entry Syl)} (h : RuleReading ct w look brk es) : RuleReading ct w' look brk es := by
  obtain ⟨c, h1, h2, rfl⟩ := h
  exact ⟨c, ruDeriv X hl h1, X.len ▸ h2, rfl⟩

theorem ruDeadEnd {c : Config} (h : DeadEnd ct w look brk c) : DeadEnd ct w' look brk c := by
  obtain ⟨h1, h2, ⟨x, h3, h4, h5⟩, t, h6, h7⟩ := h
  exact ⟨ruDeriv X hl h1, by rw [← X.len]; exact h2, ⟨x, X.keep (X.noTail_ld h4) h3, h4, h5⟩, t, X.tokenTo_iff.mp h6,
    fun q data hw => h7 q data (X.symm.wordAt (fun p q h1 h2 => (hl p q h1 (X.len ▸ h2)).symm) hw)⟩

end

end Thpronun
