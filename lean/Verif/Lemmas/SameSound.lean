import Verif.Spec.SameSound
import Verif.Lemmas.Mute

/-! # Lemmas on texts that differ in letters of the same sound only -/

namespace Thpronun
open Res Spec DAG

variable {ct : CType} {w w' : U16Str} {t : Nat}

/-- The characters of `s` have no other letter of the same sound. -/
def Lone (s : U16Str) : Prop := ∀ g ∈ soundGroups, ∀ c ∈ g, c ∉ s

instance (s) : Decidable (Lone s) := by unfold Lone; infer_instance

/-- The same letter, or one that sounds alike. -/
def Kin (ct : CType) (c c' : Nat) : Prop := c = c' ∨ SoundAlike ct c c'

namespace Kin
variable {c c' : Nat}

theorem cons (h : Kin ct c c') (hc : ct.isCons c = true) : ct.isCons c' = true := by
  rcases h with rfl | h
  · exact hc
  · exact h.2.1

theorem of {P : Nat → Prop} (h : Kin ct c c') (hP : ∀ g ∈ soundGroups, ∀ c ∈ g, ∀ c' ∈ g, (P c ↔ P c')) : P c ↔ P c' := by
  rcases h with rfl | ⟨-, -, g, hg, h1, h2⟩
  · exact Iff.rfl
  · exact hP g hg c h1 c' h2

theorem sound (h : Kin ct c c') (s : InitConsSound) : c ∈ soundLetters s ↔ c' ∈ soundLetters s :=
  h.of (P := fun c => c ∈ soundLetters s) (by cases s <;> decide +kernel)

theorem cls (h : Kin ct c c') (s : InitConsClass) : c ∈ classLetters s ↔ c' ∈ classLetters s :=
  h.of (P := fun c => c ∈ classLetters s) (by cases s <;> decide +kernel)

theorem final (h : Kin ct c c') (s : EndConsClass) : c ∈ finalLetters s ↔ c' ∈ finalLetters s :=
  h.of (P := fun c => c ∈ finalLetters s) (by cases s <;> decide +kernel)

theorem lone (h : Kin ct c c') {s : U16Str} (hs : Lone s) : c ∈ s ↔ c' ∈ s :=
  h.of (P := fun c => c ∈ s) fun g hg c h1 c' h2 => ⟨fun h => absurd h (hs g hg c h1), fun h => absurd h (hs g hg c' h2)⟩

theorem lone_eq (h : Kin ct c c') {x : Nat} (hs : Lone [x]) : c = x ↔ c' = x := by
  have := h.lone hs
  rwa [List.mem_singleton, List.mem_singleton] at this

theorem letter (h : Kin ct c c') {snd cls} (hc : Letter ct c snd cls) : Letter ct c' snd cls :=
  ⟨h.cons hc.1, (h.sound snd).mp hc.2.1, (h.cls cls).mp hc.2.2⟩

/-- Letters that a list does not tell apart, another list does not tell apart either. -/
theorem list (h : Kin ct c c') {a b : U16Str} (hab : ∀ g ∈ soundGroups, ∀ c ∈ g, ∀ c' ∈ g, (c ∈ a ↔ c' ∈ a) → (c ∈ b ↔ c' ∈ b))
    (ha : c ∈ a ↔ c' ∈ a) : c ∈ b ↔ c' ∈ b := by
  rcases h with rfl | ⟨-, -, g, hg, h1, h2⟩
  · exact Iff.rfl
  · exact hab g hg c h1 c' h2 ha

end Kin

/-- The two texts differ in letters of the same sound only, and none is special. -/
structure Resound (ct : CType) (w w' : U16Str) : Prop where
  ex : SoundExchange ct w w'
  sp : NoneSpecial w w'

namespace Resound

theorem symm (X : Resound ct w w') : Resound ct w' w :=
  ⟨⟨X.ex.1.symm, fun i => (X.ex.2 i).imp Eq.symm fun ⟨c, c', h1, h2, h3, h4, g, h5, h6, h7⟩ => ⟨c', c, h2, h1, h4, h3, g, h5, h7, h6⟩⟩,
    fun i x hx hf c c' h1 h2 => (X.sp i x hx hf.symm c' c h2 h1).symm⟩

section
variable (X : Resound ct w w')
include X

theorem len : w.length = w'.length := X.ex.1

theorem get {i c : Nat} (h : w[i]? = some c) : ∃ c', w'[i]? = some c' ∧ Kin ct c c' := by
  rcases X.ex.2 i with k | ⟨c1, c', h1, h2, h3⟩
  · exact ⟨c, k ▸ h, .inl rfl⟩
  · rw [h1] at h; cases h; exact ⟨c', h2, .inr h3⟩

theorem getAt {i c : Nat} (h : At w t i c) : ∃ c', At w' t i c' ∧ Kin ct c c' := by
  obtain ⟨c', h1, h2⟩ := X.get h.2
  exact ⟨c', ⟨h.1, h1⟩, h2⟩

theorem special {i : Nat} {x : Place} {c c' : Nat} (hx : x ∈ specialPlaces) (hf : x.Fits w i) (h : w[i]? = some c)
    (h' : w'[i]? = some c') : c ∈ x.letters ↔ c' ∈ x.letters := X.sp i x hx (.inl hf) c c' h h'

theorem keep {i c : Nat} (hc : Lone [c]) (h : w[i]? = some c) : w'[i]? = some c := by
  obtain ⟨c', h1, h2⟩ := X.get h
  rw [h1, (h2.lone_eq hc).mp rfl]

theorem lit {i c : Nat} (hc : Lone [c]) (h : At w t i c) : At w' t i c := ⟨h.1, X.keep hc h.2⟩

theorem lit_iff {i c : Nat} (hc : Lone [c]) : At w t i c ↔ At w' t i c := ⟨X.lit hc, Resound.lit (symm X) hc⟩

theorem keep_no {i c : Nat} (hc : ct.isCons c = false) (h : w[i]? = some c) : w'[i]? = some c := by
  obtain ⟨c', h1, rfl | h2⟩ := X.get h
  · exact h1
  · rw [h2.1] at hc; cases hc

theorem no {i c : Nat} (hc : ct.isCons c = false) (h : At w t i c) : At w' t i c := ⟨h.1, X.keep_no hc h.2⟩

/-- A special letter before another one. -/
theorem before {i : Nat} {l s : U16Str} (hx : ⟨none, l, some s⟩ ∈ specialPlaces) {d c c' : Nat} (hd : w[i + 1]? = some d) (hs : d ∈ s)
    (h : w[i]? = some c) (h' : w'[i]? = some c') : c ∈ l ↔ c' ∈ l :=
  X.special hx ⟨nofun, fun _ e => by cases e; exact ⟨d, hd, hs⟩⟩ h h'

/-- A special letter after another one. -/
theorem behind {i : Nat} {l s : U16Str} (hx : ⟨some s, l, none⟩ ∈ specialPlaces) {d c c' : Nat} (hd : w[i]? = some d) (hs : d ∈ s)
    (h : w[i + 1]? = some c) (h' : w'[i + 1]? = some c') : c ∈ l ↔ c' ∈ l :=
  X.special hx ⟨fun _ e => by cases e; exact ⟨i, d, rfl, hd, hs⟩, nofun⟩ h h'

end

theorem startAt (X : Resound ct w w') {i : Nat} (h : StartAt ct w t i) : StartAt ct w' t i := by
  obtain ⟨c, h, hc⟩ := h
  obtain ⟨c', h1, rfl | h2⟩ := X.getAt h
  · exact ⟨c, h1, hc⟩
  · exact ⟨c', h1, .inl h2.2.1⟩

theorem startAt_iff (X : Resound ct w w') {i : Nat} : StartAt ct w t i ↔ StartAt ct w' t i := ⟨X.startAt, X.symm.startAt⟩

theorem endOrStart_iff (X : Resound ct w w') {i : Nat} : EndOrStart ct w t i ↔ EndOrStart ct w' t i := by
  unfold EndOrStart; rw [X.startAt_iff]

theorem silent (X : Resound ct w w') {i : Nat} (h : Silent ct w t i) : Silent ct w' t i := by
  obtain ⟨c, h, hc, h'⟩ := h
  obtain ⟨c', h1, h2⟩ := X.getAt h
  exact ⟨c', h1, h2.cons hc, X.lit (by decide +kernel) h'⟩

theorem silent_iff (X : Resound ct w w') {i : Nat} : Silent ct w t i ↔ Silent ct w' t i := ⟨X.silent, X.symm.silent⟩

theorem iu_iff {d d' : Nat} (h : Kin ct d d') : IU d ↔ IU d' := by
  unfold IU; rw [h.lone_eq (by decide +kernel), h.lone_eq (x := ch!"ุ") (by decide +kernel)]

theorem silent2 (X : Resound ct w w') {i : Nat} {A : Nat → Prop} (hA : ∀ d d', Kin ct d d' → A d → A d')
    (h : Silent2 ct w t A i) : Silent2 ct w' t A i := by
  obtain ⟨c, d, h, hc, h', hd, h''⟩ := h
  obtain ⟨c', h1, h2⟩ := X.getAt h
  obtain ⟨d', h3, h4⟩ := X.getAt h'
  exact ⟨c', d', h1, h2.cons hc, h3, hA d d' h4 hd, X.lit (by decide +kernel) h''⟩

theorem silent2_iu (X : Resound ct w w') {i : Nat} : Silent2 ct w t IU i ↔ Silent2 ct w' t IU i :=
  ⟨X.silent2 fun _ _ h => (iu_iff h).mp, X.symm.silent2 fun _ _ h => (iu_iff h).mp⟩

theorem silent2_any (X : Resound ct w w') {i : Nat} :
    Silent2 ct w t (fun d => ct.isCons d = true ∨ IU d) i ↔ Silent2 ct w' t (fun d => ct.isCons d = true ∨ IU d) i :=
  ⟨X.silent2 fun _ _ h => Or.imp h.cons (iu_iff h).mp, X.symm.silent2 fun _ _ h => Or.imp h.cons (iu_iff h).mp⟩

theorem skip_iff (X : Resound ct w w') {i k : Nat} : Skip ct w t i k ↔ Skip ct w' t i k := by
  unfold Skip; rw [X.silent_iff]

theorem skipIU_iff (X : Resound ct w w') {i k : Nat} : SkipIU ct w t i k ↔ SkipIU ct w' t i k := by
  unfold SkipIU; rw [X.silent2_iu]

theorem skipAny_iff (X : Resound ct w w') {i k : Nat} : SkipAny ct w t i k ↔ SkipAny ct w' t i k := by
  unfold SkipAny; rw [X.silent_iff, X.silent2_any]

theorem finalAt (X : Resound ct w w') {i : Nat} {e c f} (he : Lone e) (h : FinalAt ct w t i e c f) :
    ∃ c', FinalAt ct w' t i e c' f ∧ Kin ct c c' := by
  obtain ⟨h1, h2, h3, h4, h5⟩ := h
  obtain ⟨c', k1, k2⟩ := X.getAt h1
  exact ⟨c', ⟨k1, k2.cons h2, (k2.final f).mp h3, h4, mt (k2.lone he).mpr h5⟩, k2⟩

theorem anyFinal_iff (X : Resound ct w w') {i : Nat} : (∃ d f, FinalAt ct w t i [] d f) ↔ ∃ d f, FinalAt ct w' t i [] d f := by
  constructor
  · rintro ⟨d, f, h⟩; obtain ⟨d', h', -⟩ := X.finalAt (by decide +kernel) h; exact ⟨d', f, h'⟩
  · rintro ⟨d, f, h⟩; obtain ⟨d', h', -⟩ := X.symm.finalAt (by decide +kernel) h; exact ⟨d', f, h'⟩

theorem closed (X : Resound ct w w') {i e k b f} (he : Lone e) (h : Closed ct w t i e k b f) : Closed ct w' t i e k b f := by
  obtain ⟨c, h1, h2, h3⟩ := h
  obtain ⟨c', h4, -⟩ := X.finalAt he h1
  exact ⟨c', h4, h2, X.skipAny_iff.mp h3⟩

theorem iu_special (X : Resound ct w w') {i c c' d : Nat} (hk : Kin ct c c') (hc : w[i]? = some c) (hc' : w'[i]? = some c')
    (hd : w[i + 1]? = some d) (hi : IU d) : c ∈ u!"ฒตธร" ↔ c' ∈ u!"ฒตธร" :=
  hk.list (a := u!"ฒตธ") (by decide +kernel)
    (X.before (s := u!"ิุ") (by decide +kernel) hd (by rcases hi with rfl | rfl <;> decide) hc hc')

theorem silentTail (X : Resound ct w w') {i c c' : Nat} (hk : Kin ct c c') (hc : w[i]? = some c) (hc' : w'[i]? = some c')
    (h : SilentTail ct w t i c) : SilentTail ct w' t i c' := by
  refine ⟨X.endOrStart_iff.mp h.1, ?_⟩
  rcases h.2 with ⟨h1, h2, h3⟩ | ⟨d, h1, h2, h3⟩
  · refine .inl ⟨X.lit (by decide +kernel) h1, h2, ?_⟩
    have e1 := X.before (l := u!"ขคดตทพ") (s := u!"ร") (by decide +kernel) h1.2 (by decide) hc hc'
    have e2 := X.before (l := u!"ช") (s := u!"ร") (by decide +kernel) h1.2 (by decide) hc hc'
    rcases hk with rfl | ⟨-, -, g, hg, k1, k2⟩
    · exact h3
    · have key : ∀ g ∈ soundGroups, ∀ c ∈ g, ∀ c' ∈ g, ((c ∈ u!"ขคดตทพ" ↔ c' ∈ u!"ขคดตทพ") ∧ (c ∈ u!"ช" ↔ c' ∈ u!"ช") ∧
          c ∈ u!"กคชตท") → c' ∈ u!"กคชตท" := by decide +kernel
      exact key g hg c k1 c' k2 ⟨e1, e2, h3⟩
  · obtain ⟨d', h4, h5⟩ := X.getAt h1
    exact .inr ⟨d', h4, (iu_iff h5).mp h2, (X.iu_special hk hc hc' h1.2 h2).mp h3⟩

theorem links (X : Resound ct w w') {i c c' : Nat} (hk : Kin ct c c') (hc : w[i]? = some c) (hc' : w'[i]? = some c')
    (h : Links ct w t i c) : Links ct w' t i c' := by
  rcases h with ⟨d, n, h1, h2, h3, h4⟩ | ⟨d, h1, h2, h3, h4⟩
  · obtain ⟨d', k1, k2⟩ := X.getAt h1
    obtain ⟨n', k3, k4⟩ := X.getAt h3
    exact .inl ⟨d', n', k1, k2.cons h2, k3, h4.imp (k4.lone (by decide +kernel)).mp k4.cons⟩
  · exact .inr ⟨d, X.no h2 h1, h2, h3, fun ⟨k1, k2, k3⟩ => h4 ⟨k1, (X.iu_special hk hc hc' h1.2 k1).mpr k2, k3⟩⟩

theorem closedX (X : Resound ct w w') {i e k b f} (he : Lone e) (h : ClosedX ct w t i e k b f) : ClosedX ct w' t i e k b f := by
  obtain ⟨c, h1, h2⟩ := h
  obtain ⟨c', h3, hk⟩ := X.finalAt he h1
  exact ⟨c', h3, h2.imp (And.imp_right X.skipAny_iff.mp)
    (And.imp X.skipAny_iff.mp (Or.imp (And.imp_right (And.imp_right (X.silentTail hk h1.1.2 h3.1.2)))
      (And.imp_right (And.imp_right (X.links hk h1.1.2 h3.1.2)))))⟩

theorem ruAt_iff (X : Resound ct w w') {i : Nat} : RuAt w t i ↔ RuAt w' t i := by
  unfold RuAt
  rw [X.lit_iff (i := i + 1) (by decide +kernel), X.lit_iff (c := ch!"ๅ") (by decide +kernel),
    X.lit_iff (c := ch!"า") (by decide +kernel)]

/-- The letters before ฤ that are told apart. -/
theorem ru_lists (X : Resound ct w w') {i c c' : Nat} (hk : Kin ct c c') (hc : w[i]? = some c) (hc' : w'[i]? = some c')
    (h : w[i + 1]? = some ch!"ฤ") : (c ∈ u!"กตทป" ↔ c' ∈ u!"กตทป") ∧ (c ∈ u!"ศส" ↔ c' ∈ u!"ศส") ∧ (c = ch!"ว" ↔ c' = ch!"ว") ∧
      (c = ch!"น" ↔ c' = ch!"น") ∧ (c ∈ u!"คพ" ↔ c' ∈ u!"คพ") ∧ (c = ch!"ห" ↔ c' = ch!"ห") ∧
      (c ∈ u!"กตทปศสวนคพ" ↔ c' ∈ u!"กตทปศสวนคพ") := by
  have e1 := X.before (l := u!"ตท") (s := u!"ฤ") (by decide +kernel) h (by decide) hc hc'
  have e2 := X.before (l := u!"ศส") (s := u!"ฤ") (by decide +kernel) h (by decide) hc hc'
  have e3 := X.before (l := u!"น") (s := u!"ฤ") (by decide +kernel) h (by decide) hc hc'
  have e4 := X.before (l := u!"คพ") (s := u!"ฤ") (by decide +kernel) h (by decide) hc hc'
  have k1 : c ∈ u!"กตทป" ↔ c' ∈ u!"กตทป" := hk.list (by decide +kernel) e1
  have k2 := hk.lone_eq (x := ch!"ว") (by decide +kernel)
  have k3 : c = ch!"น" ↔ c' = ch!"น" := by
    rw [show u!"น" = [ch!"น"] from rfl, List.mem_singleton, List.mem_singleton] at e3; exact e3
  refine ⟨k1, e2, k2, k3, e4, hk.lone_eq (by decide +kernel), ?_⟩
  have key : ∀ x : Nat, x ∈ u!"กตทปศสวนคพ" ↔ x ∈ u!"กตทป" ∨ x ∈ u!"ศส" ∨ x = ch!"ว" ∨ x = ch!"น" ∨ x ∈ u!"คพ" := by
    intro x
    rw [show u!"กตทปศสวนคพ" = u!"กตทป" ++ (u!"ศส" ++ (ch!"ว" :: ch!"น" :: u!"คพ")) from rfl, List.mem_append, List.mem_append]
    refine or_congr Iff.rfl (or_congr Iff.rfl ?_)
    rw [List.mem_cons, List.mem_cons]
  rw [key, key, k1, e2, k2, k3, e4]

theorem withRu (X : Resound ct w w') {i c c' snd cls o} (hk : Kin ct c c') (hc : w[i]? = some c) (hc' : w'[i]? = some c')
    (hr : RuAt w t i) (h : WithRu ct w t i c snd cls o) : WithRu ct w' t i c' snd cls o := by
  obtain ⟨k1, k2, k3, k4, k5, k6, k7⟩ := X.ru_lists hk hc hc' hr.1.2
  unfold WithRu at h ⊢
  simp only [X.anyFinal_iff, k1, k2, k3, k4, k5, k7, Ne, k6] at h ⊢
  exact h

/-- A letter that makes a cluster. -/
theorem cluster (X : Resound ct w w') {i c c' d d' : Nat} (hk : Kin ct c c') (hc : w[i]? = some c) (hc' : w'[i]? = some c')
    (hk2 : Kin ct d d') (hd : w[i + 1]? = some d) (hd' : w'[i + 1]? = some d') {cs : U16Str} {s : SecInitCons}
    (h : (cs, d, s) ∈ trueClusters) (hcs : c ∈ cs) : d' = d ∧ c' ∈ cs := by
  rw [show trueClusters = [(u!"กขคดตทบปพฟ", ch!"ร", SC.RA), (u!"กขคบปผพฟ", ch!"ล", SC.LA), (u!"กขค", ch!"ว", SC.WA)] from rfl,
    List.mem_cons, List.mem_cons, List.mem_singleton] at h
  rcases h with h | h | h <;> cases h
  · exact ⟨(hk2.lone_eq (by decide +kernel)).mp rfl, (hk.list (a := u!"ขคดตทพ") (by decide +kernel)
      (X.before (s := u!"ร") (by decide +kernel) hd (by decide) hc hc')).mp hcs⟩
  · refine ⟨?_, (hk.list (a := u!"ขคพ") (by decide +kernel)
      (X.before (s := u!"ล") (by decide +kernel) hd (by decide) hc hc')).mp hcs⟩
    have := (X.behind (l := u!"ล") (s := u!"กขคบปผพฟ") (by decide +kernel) hc hcs hd hd').mp (by decide)
    exact List.mem_singleton.mp this
  · exact ⟨(hk2.lone_eq (by decide +kernel)).mp rfl, (hk.list (a := u!"ขค") (by decide +kernel)
      (X.before (s := u!"ว") (by decide +kernel) hd (by decide) hc hc')).mp hcs⟩

theorem twoLetters (X : Resound ct w w') {i l c c' snd cls d d' snd2 cls2 o} (hk : Kin ct c c') (hc : w[i]? = some c)
    (hc' : w'[i]? = some c') (hk2 : Kin ct d d') (hd : w[i + 1]? = some d) (hd' : w'[i + 1]? = some d')
    (h : TwoLetters i l c snd cls d snd2 cls2 o) : TwoLetters i l c' snd cls d' snd2 cls2 o := by
  rcases h with ⟨cs, s, h1, h2, h3, h4⟩ | ⟨h1, rfl, h2⟩ | ⟨rfl, h⟩ | h
  · obtain ⟨rfl, h5⟩ := X.cluster hk hc hc' hk2 hd hd' h1 h2
    refine .inl ⟨cs, s, h1, h5, fun hl => ?_, h4⟩
    obtain ⟨rfl, h6⟩ := h3 hl
    exact ⟨rfl, (hk.list (a := u!"ขคดตทพ") (by decide +kernel)
      (X.before (s := u!"ร") (by decide +kernel) hd (by decide) hc hc')).mp h6⟩
  · exact .inr (.inl ⟨(hk.list (a := u!"ศส") (by decide +kernel)
      (X.before (s := u!"ร") (by decide +kernel) hd (by decide) hc hc')).mp h1, (hk2.lone_eq (by decide +kernel)).mp rfl, h2⟩)
  · exact .inr (.inr (.inl ⟨(hk.lone_eq (by decide +kernel)).mp rfl, h⟩))
  · exact .inr (.inr (.inr h))

theorem onsetAt (X : Resound ct w w') {i l o} (h : OnsetAt ct w t i l o) : OnsetAt ct w' t i l o := by
  obtain ⟨c, snd, cls, h1, h2, h3⟩ := h
  obtain ⟨c', h1', hk⟩ := X.get h1
  refine ⟨c', snd, cls, h1', hk.letter h2, h3.imp_right (Or.imp ?_ ?_)⟩
  · rintro ⟨d, s2, c2, k1, k2, k3, k4⟩
    obtain ⟨d', k1', hk2⟩ := X.getAt k1
    exact ⟨d', s2, c2, k1', hk2.letter k2, fun k => k3 ⟨(hk2.lone_eq (by decide +kernel)).mpr k.1, X.symm.lit (by decide +kernel) k.2⟩,
      X.twoLetters hk h1 h1' hk2 k1.2 k1'.2 k4⟩
  · exact fun ⟨a, b⟩ => ⟨X.ruAt_iff.mp a, X.withRu hk h1 h1' a b⟩

theorem wholeAt (X : Resound ct w w') {i o r} (h : WholeAt ct w t i o r) : WholeAt ct w' t i o r := by
  obtain ⟨c, snd, cls, h1, h2, h3⟩ := h
  obtain ⟨c', h1', hk⟩ := X.get h1
  refine ⟨c', snd, cls, h1', hk.letter h2, ?_⟩
  rcases h3 with ⟨a, h⟩ | ⟨rfl, b, d, e, h⟩ | ⟨a, b, d, h⟩ | ⟨a, b, h⟩
  · exact .inl ⟨X.startAt a, h⟩
  · refine .inr (.inl ⟨(hk.lone_eq (by decide +kernel)).mp rfl, ?_, d, e.imp (X.lit (by decide +kernel)) (X.lit (by decide +kernel)), h⟩)
    obtain ⟨x, hx, -⟩ := X.getAt b
    have hf : (⟨some u!"บ", u!"ด", some u!"ิี"⟩ : Place).Fits w (i + 1) := by
      refine ⟨fun s hs => ?_, fun s hs => ?_⟩
      · cases hs; exact ⟨i, _, rfl, h1, by decide⟩
      · cases hs
        rcases e with e | e
        · exact ⟨_, e.2, by decide⟩
        · exact ⟨_, e.2, by decide⟩
    have hm := (X.special (by decide +kernel) hf b.2 hx.2).mp (by decide)
    obtain rfl : x = ch!"ด" := List.mem_singleton.mp hm
    exact hx
  · refine .inr (.inr (.inl ⟨X.lit (by decide +kernel) a, b, mt (X.symm.lit (by decide +kernel)) d, ?_⟩))
    rcases h with ⟨h, h4, h5⟩ | ⟨h, h4, h5⟩ | ⟨h, h4, h5⟩
    · refine .inl ⟨X.startAt h, ?_, h5⟩
      have e1 := X.before (l := u!"ขคดตทพ") (s := u!"ร") (by decide +kernel) a.2 (by decide) h1 h1'
      have e2 := X.before (l := u!"ทธนภส") (s := u!"ร") (by decide +kernel) a.2 (by decide) h1 h1'
      rcases hk with rfl | ⟨-, -, g, hg, k1, k2⟩
      · exact h4
      · have key : ∀ g ∈ soundGroups, ∀ c ∈ g, ∀ c' ∈ g, ((c ∈ u!"ขคดตทพ" ↔ c' ∈ u!"ขคดตทพ") ∧
            (c ∈ u!"ทธนภส" ↔ c' ∈ u!"ทธนภส") ∧ c ∈ u!"กคจทธนบปภมวสหอ") → c' ∈ u!"กคจทธนบปภมวสหอ" := by decide +kernel
        exact key g hg c k1 c' k2 ⟨e1, e2, h4⟩
    · exact .inr (.inl ⟨X.lit (by decide +kernel) h, (hk.lone_eq (by decide +kernel)).mp h4, h5⟩)
    · exact .inr (.inr ⟨X.lit (by decide +kernel) h, (hk.lone_eq (by decide +kernel)).mp h4, h5⟩)
  · obtain ⟨-, -, -, -, k5, -, k7⟩ := X.ru_lists hk h1 h1' a.1.2
    refine .inr (.inr (.inr ⟨X.ruAt_iff.mp a, ?_, h⟩))
    rw [← k5, ← k7, ← X.anyFinal_iff]
    exact b

end Resound

/-! ## Rimes -/

namespace Resound
variable (hct : ct.Ok) (X : Resound ct w w') {r : Rime}
include X

theorem open_ {j v f m} (h : Open ct w t j v f m r) : Open ct w' t j v f m r := by
  obtain ⟨k, h1, rfl⟩ := h
  exact ⟨k, X.skip_iff.mp h1, rfl⟩

theorem shut_ {j e v m} (he : Lone e) (h : Shut ct w t j e v m r) : Shut ct w' t j e v m r := by
  obtain ⟨k, b, f, h1, rfl⟩ := h
  exact ⟨k, b, f, X.closed he h1, rfl⟩

theorem shutX_ {j e v m} (he : Lone e) (h : ShutX ct w t j e v m r) : ShutX ct w' t j e v m r := by
  obtain ⟨k, b, f, h1, rfl⟩ := h
  exact ⟨k, b, f, X.closedX he h1, rfl⟩

theorem shut0 {j v m} (h : Shut ct w t j [] v m r) : Shut ct w' t j [] v m r := X.shut_ (by decide +kernel) h

theorem shutX0 {j v m} (h : ShutX ct w t j [] v m r) : ShutX ct w' t j [] v m r := X.shutX_ (by decide +kernel) h

theorem skipShut {j v m} (h : ∃ k', Skip ct w t j k' ∧ Shut ct w t k' [] v m r) :
    ∃ k', Skip ct w' t j k' ∧ Shut ct w' t k' [] v m r :=
  h.imp fun _ => And.imp X.skip_iff.mp X.shut0

theorem skipShutX {j v m} (h : ∃ k', Skip ct w t j k' ∧ ShutX ct w t k' [] v m r) :
    ∃ k', Skip ct w' t j k' ∧ ShutX ct w' t k' [] v m r :=
  h.imp fun _ => And.imp X.skip_iff.mp X.shutX0

include hct

theorem markAt {i k : Nat} {m : Tone} (h : MarkAt ct w t i m k) : MarkAt ct w' t i m k := by
  rcases h with ⟨c, h1, h2, h3⟩ | ⟨h1, h2⟩
  · exact .inl ⟨c, X.no (tone_noCons hct h2) h1, h2, h3⟩
  · refine .inr ⟨fun c hc => ?_, h2⟩
    cases hc' : ct.isTone c with
    | false => rfl
    | true => rw [← hc']; exact h1 c (X.symm.no (tone_noCons hct hc') hc)

theorem hanRime {j} (h : HanRime ct w t j r) : HanRime ct w' t j r := by
  obtain ⟨h0, m, k, hm, h⟩ := h
  refine ⟨X.lit (by decide +kernel) h0, m, k, X.markAt hct hm, ?_⟩
  have la : ∀ {i}, At w t i ch!"ะ" ↔ At w' t i ch!"ะ" := X.lit_iff (by decide +kernel)
  have lw : At w t k ch!"ว" ↔ At w' t k ch!"ว" := X.lit_iff (by decide +kernel)
  exact h.imp (And.imp lw.mp (And.imp la.mp X.open_)) (Or.imp (And.imp lw.mp (And.imp (mt la.mpr) X.open_))
    (Or.imp (And.imp (mt lw.mpr) (And.imp_right X.shutX0)) (And.imp (mt lw.mpr) (And.imp_right X.shut0))))

theorem ld_none {k} (h : ∀ c, At w t k c → ct.isLdVowel c = false) : ∀ c, At w' t k c → ct.isLdVowel c = false := by
  intro c hc
  cases hl : ct.isLdVowel c with
  | false => rfl
  | true => rw [← hl]; exact h c (X.symm.no (ld_nocons hct hl) hc)

theorem ld_other {k} (h : ∃ c, At w t k c ∧ ct.isLdVowel c = false) : ∃ c, At w' t k c ∧ ct.isLdVowel c = false := by
  obtain ⟨c, h1, h2⟩ := h
  obtain ⟨c', h3, rfl | h4⟩ := X.getAt h1
  · exact ⟨c, h3, h2⟩
  · refine ⟨c', h3, ?_⟩
    cases hl : ct.isLdVowel c' with
    | false => rfl
    | true => have := h4.2.1; rw [ld_nocons hct hl] at this; cases this

theorem signFinal {k v m} (h : SignFinal ct w t k v m r) : SignFinal ct w' t k v m r := by
  obtain ⟨h0, h⟩ := h
  have lo : ∀ {i}, At w t i ch!"อ" ↔ At w' t i ch!"อ" := X.lit_iff (by decide +kernel)
  have he : Lone (if v = VW.I ∨ v = VW.II then u!"ย" else []) := by split <;> decide +kernel
  exact ⟨X.ld_none hct h0, h.imp (And.imp_right (And.imp lo.mp X.open_)) (Or.imp (And.imp_right (And.imp (mt lo.mpr) X.shut0))
    (Or.imp (And.imp_right (And.imp_right (X.shut_ he))) (And.imp_right (And.imp_right (And.imp_right (X.shutX_ he))))))⟩

theorem signRime {j} (h : SignRime ct w t j r) : SignRime ct w' t j r := by
  obtain ⟨c, v, m, k, hc, hv, hcv, hm, h⟩ := h
  refine ⟨c, v, m, k, X.lit ?_ hc, hv, hcv, X.markAt hct hm, ?_⟩
  · exact (by decide +kernel : ∀ x ∈ signVowels, Lone [x.1]) _ hcv
  refine h.imp (And.imp_right (And.imp (X.ld_other hct) (X.signFinal hct)))
    (And.imp (mt (And.imp_right (X.symm.ld_other hct))) (Or.imp (And.imp X.silent (Or.imp_right (X.signFinal hct))) (Or.imp ?_ ?_)))
  · exact And.imp (mt X.silent_iff.mpr) (And.imp_left X.silent2_iu.mp)
  · exact And.imp (mt X.silent_iff.mpr) (And.imp (mt X.silent2_iu.mpr) (Or.imp_right (X.signFinal hct)))

omit hct in
theorem shortORime {j} (h : ShortORime ct w t j r) : ShortORime ct w' t j r :=
  ⟨X.lit (by decide +kernel) h.1, X.lit (by decide +kernel) h.2.1, X.skipShut h.2.2⟩

omit hct in
theorem roRime {o k m} (h : RoRime ct w t o k m r) : RoRime ct w' t o k m r := by
  refine ⟨X.lit (by decide +kernel) h.1, h.2.imp (And.imp_right X.open_) (Exists.imp fun k' h => ?_)⟩
  refine ⟨by rw [← X.skip_iff]; exact h.1, X.lit (by decide +kernel) h.2.1, h.2.2.imp X.open_ (And.imp (mt X.silent_iff.mpr) X.shutX0)⟩

theorem plainRime {o l j} (h : PlainRime ct w t o l j r) : PlainRime ct w' t o l j r := by
  obtain ⟨m, k, hm, h⟩ := h
  refine ⟨m, k, X.markAt hct hm, ?_⟩
  rcases h with ⟨a, h⟩ | ⟨a, h⟩ | ⟨a, h⟩ | ⟨a, h⟩ | ⟨a, h⟩ | h | ⟨a, b, c, h⟩ | ⟨v, c, a, b, d, e, h⟩
  · exact .inl ⟨X.lit (by decide +kernel) a, X.open_ h⟩
  · exact .inr (.inl ⟨X.lit (by decide +kernel) a, h.imp X.open_ X.skipShutX⟩)
  · exact .inr (.inr (.inl ⟨X.lit (by decide +kernel) a, X.open_ h⟩))
  · exact .inr (.inr (.inr (.inl ⟨X.lit (by decide +kernel) a, X.shut0 h⟩)))
  · exact .inr (.inr (.inr (.inr (.inl ⟨X.lit (by decide +kernel) a, h.imp X.open_ X.skipShut⟩))))
  · exact .inr (.inr (.inr (.inr (.inr (.inl (X.roRime h))))))
  · exact .inr (.inr (.inr (.inr (.inr (.inr (.inl ⟨a, b, c, X.shut_ (by decide +kernel) h⟩))))))
  · obtain ⟨c', k1, k2⟩ := X.getAt b
    exact .inr (.inr (.inr (.inr (.inr (.inr (.inr ⟨v, c', a, k1, k2.cons d, mt (k2.lone (by decide +kernel)).mpr e,
      h.imp_right X.shutX0⟩))))))

theorem consRime {o l} (h : ConsRime ct w t o l r) : ConsRime ct w' t o l r :=
  h.imp (X.hanRime hct) (Or.imp (X.signRime hct) (Or.imp X.shortORime (X.plainRime hct)))

theorem midRime {sign mid short long j full} (h1 : Lone [sign]) (h2 : Lone [mid])
    (h : MidRime ct w t sign mid short long j full r) : MidRime ct w' t sign mid short long j full r := by
  obtain ⟨h0, m, k, hm, hd, h⟩ := h
  have la : ∀ {i}, At w t i ch!"ะ" ↔ At w' t i ch!"ะ" := X.lit_iff (by decide +kernel)
  refine ⟨X.lit h1 h0, m, k, X.markAt hct hm, X.lit h2 hd, ?_⟩
  refine h.imp (And.imp la.mp X.open_) (And.imp (mt la.mpr) (Or.imp X.open_ fun ⟨k', b, h⟩ => ?_))
  cases full with
  | true => exact ⟨k', X.skip_iff.mp b, X.shutX0 h⟩
  | false => exact ⟨k', X.skip_iff.mp b, X.shut0 h⟩

theorem eRime {o} (h : ERime ct w t o r) : ERime ct w' t o r := by
  have la : ∀ {i}, At w t i ch!"ะ" ↔ At w' t i ch!"ะ" := X.lit_iff (by decide +kernel)
  rcases h with h | ⟨a, m, k, k', hm, b, h⟩ | h | h | ⟨a, h⟩ | ⟨hlt, m, k, hm, h⟩
  · exact .inl h
  · exact .inr (.inl ⟨X.lit (by decide +kernel) a, m, k, k', X.markAt hct hm, X.skip_iff.mp b, X.shut0 h⟩)
  · exact .inr (.inr (.inl (X.midRime hct (by decide +kernel) (by decide +kernel) h)))
  · exact .inr (.inr (.inr (.inl (X.midRime hct (by decide +kernel) (by decide +kernel) h))))
  · exact .inr (.inr (.inr (.inr (.inl ⟨X.lit (by decide +kernel) a, X.shut0 h⟩))))
  · refine .inr (.inr (.inr (.inr (.inr ⟨hlt, m, k, X.markAt hct hm, ?_⟩))))
    rcases h with h | ⟨a, h⟩ | ⟨a, b, h⟩ | ⟨a, h⟩ | ⟨a, b, h⟩ | ⟨c, a, b, d, e, n, h⟩
    · exact .inl h
    · exact .inr (.inl ⟨X.lit (by decide +kernel) a, h.imp (And.imp_right X.open_) (Or.imp (And.imp la.mp X.open_)
        (And.imp (mt la.mpr) X.open_))⟩)
    · exact .inr (.inr (.inl ⟨la.mp a, b, X.open_ h⟩))
    · exact .inr (.inr (.inr (.inl ⟨X.lit (by decide +kernel) a, h.imp (And.imp la.mp X.open_) (And.imp (mt la.mpr) X.open_)⟩)))
    · exact .inr (.inr (.inr (.inr (.inl ⟨X.lit (by decide +kernel) a, X.endOrStart_iff.mp b, X.open_ h⟩))))
    · obtain ⟨c', k1, k2⟩ := X.getAt a
      exact .inr (.inr (.inr (.inr (.inr ⟨c', k1, mt (k2.lone (by decide +kernel)).mpr b,
        fun h => d ⟨(k2.lone_eq (by decide +kernel)).mpr h.1, X.endOrStart_iff.mpr h.2⟩,
        fun h => e (h.imp_right (k2.lone (by decide +kernel)).mpr), n, h.imp X.open_ X.skipShutX⟩))))

omit hct in
theorem aeRime {k m} (h : AeRime ct w t k m r) : AeRime ct w' t k m r := by
  have la : ∀ {i}, At w t i ch!"ะ" ↔ At w' t i ch!"ะ" := X.lit_iff (by decide +kernel)
  have lm : ∀ {i}, At w t i ch!"็" ↔ At w' t i ch!"็" := X.lit_iff (by decide +kernel)
  exact h.imp (And.imp la.mp X.open_) (Or.imp (And.imp lm.mp X.shut0) (And.imp (mt la.mpr) (And.imp (mt lm.mpr)
    (Or.imp X.open_ X.skipShut))))

omit hct in
theorem oRime {k m} (h : ORime ct w t k m r) : ORime ct w' t k m r := by
  have la : ∀ {i}, At w t i ch!"ะ" ↔ At w' t i ch!"ะ" := X.lit_iff (by decide +kernel)
  have s1 : ∀ {i}, Silent ct w t i ↔ Silent ct w' t i := X.silent_iff
  have s2 : ∀ {i}, Silent2 ct w t IU i ↔ Silent2 ct w' t IU i := X.silent2_iu
  refine h.imp (And.imp la.mp (Or.imp (And.imp_left s1.mp) (And.imp (mt s1.mpr) (Exists.imp fun _ => And.imp_left X.skipIU_iff.mp))))
    (And.imp (mt la.mpr) (Or.imp (And.imp s1.mp (Or.imp_right X.shutX0)) (Or.imp ?_ ?_)))
  · exact And.imp (mt s1.mpr) (And.imp_left s2.mp)
  · exact And.imp (mt s1.mpr) (And.imp (mt s2.mpr) (Or.imp_right X.shutX0))

omit hct in
theorem aiRime {b k m} (h : AiRime ct w t b k m r) : AiRime ct w' t b k m r :=
  h.imp X.open_ fun ⟨a, c, d, e⟩ => ⟨a, X.lit (by decide +kernel) c, X.endOrStart_iff.mp d, e⟩

theorem leadRime {v j} (h : LeadRime ct w t v j r) : LeadRime ct w' t v j r := by
  obtain ⟨m, k, hm, h⟩ := h
  exact ⟨m, k, X.markAt hct hm, h.imp (And.imp_right X.aeRime) (Or.imp (And.imp_right X.oRime)
    (Or.imp (And.imp_right X.aiRime) (And.imp_right X.aiRime)))⟩

omit hct in
theorem ruRime {i c} (hc : w[i]? = some c) (hr : c = ch!"ฤ" ∨ c = ch!"ฦ") (h : RuRime ct w t i r) : RuRime ct w' t i r := by
  rcases h with h | ⟨a, h⟩ | ⟨d, a, b, h⟩
  · exact .inl h
  · exact .inr (.inl ⟨a.imp (X.lit (by decide +kernel)) (X.lit (by decide +kernel)), h⟩)
  · obtain ⟨d', k1, k2⟩ := X.getAt a
    have e := X.behind (l := u!"ณทษ") (s := u!"ฤฦ") (by decide +kernel) hc (by rcases hr with rfl | rfl <;> decide) a.2 k1.2
    refine .inr (.inr ⟨d', k1, k2.cons b, ?_⟩)
    simp only [X.startAt_iff, k2.final .NONE, e] at h
    exact h.imp_right (And.imp_right X.shutX0)

theorem spelled {i l o} (h : Spelled ct w t i l o r) : Spelled ct w' t i l o r := by
  obtain ⟨c, hc, h⟩ := h
  obtain ⟨c', hc', hk⟩ := X.get hc
  rcases h with ⟨a, ⟨b, d, h⟩ | ⟨h, d⟩⟩ | ⟨rfl, a, b, h⟩ | ⟨a, b, d, h⟩ | ⟨a, b, h⟩
  · exact ⟨c', hc', .inl ⟨hk.cons a, .inl ⟨X.onsetAt b, d, X.consRime hct h⟩⟩⟩
  · exact ⟨c', hc', .inl ⟨hk.cons a, .inr ⟨X.wholeAt h, d⟩⟩⟩
  · exact ⟨_, X.keep (by decide +kernel) hc, .inr (.inl ⟨rfl, a, X.onsetAt b, X.eRime hct h⟩)⟩
  · exact ⟨c, X.keep_no (ld_nocons hct a) hc, .inr (.inr (.inl ⟨a, b, X.onsetAt d, X.leadRime hct h⟩))⟩
  · exact ⟨c, X.keep (by rcases a with rfl | rfl <;> decide +kernel) hc, .inr (.inr (.inr ⟨a, b, X.ruRime hc a h⟩))⟩

/-! ## Readings -/

omit hct

theorem textAt {i : Nat} (h : TextAt ct w i) : TextAt ct w' i := by
  obtain ⟨c, h1, h2⟩ := h
  obtain ⟨c', h3, rfl | h4⟩ := X.get h1
  · exact ⟨c, h3, h2⟩
  · exact ⟨c', h3, .inl h4.2.1⟩

theorem textAt_iff {i : Nat} : TextAt ct w i ↔ TextAt ct w' i := ⟨X.textAt, textAt X.symm⟩

variable {brk : List Int}

theorem tokenTo_iff {p : Nat} : TokenTo ct w brk p t ↔ TokenTo ct w' brk p t := by
  unfold TokenTo nextBreak
  simp only [X.textAt_iff, X.len]

theorem otherTo {p q : Nat} (h : OtherTo ct w p q) : OtherTo ct w' p q := by
  unfold OtherTo at h ⊢
  simpa only [X.textAt_iff, X.len] using h

theorem other_piece {p q : Nat} (h : OtherTo ct w p q) : piece w p q = piece w' p q := by
  refine Exchanged.piece_eq fun i h1 h2 => ?_
  rcases X.ex.2 i with e | ⟨c, c', g1, g2, g3⟩
  · exact e
  · exact absurd ⟨c, g1, .inl g3.1⟩ (h.2.2.1 i h1 h2)

theorem isAbbr {p e : Nat} (h : IsAbbr ct w p t e) : IsAbbr ct w' p t e where
  start := h.start.imp_right (Or.imp (X.keep (by decide +kernel)) (X.keep (by decide +kernel)))
  le := h.le
  shape := by
    have hc : ∀ {i : Nat}, (∃ c, w[i]? = some c ∧ ct.isCons c = true) → ∃ c, w'[i]? = some c ∧ ct.isCons c = true :=
      fun ⟨c, h1, h2⟩ => (X.get h1).imp fun _ h => ⟨h.1, h.2.cons h2⟩
    rcases h.shape with ⟨n, h1, h2, h3, h4⟩ | ⟨h1, h2, h3⟩
    · exact .inl ⟨n, h1, h2, fun i a b => hc (h3 i a b), X.keep (by decide +kernel) h4⟩
    · exact .inr ⟨h1, h2, hc h3⟩

theorem pieces (p q : Nat) : List.Forall₂ (Kin ct) (piece w p q) (piece w' p q) := by
  have h : List.Forall₂ (Kin ct) w w' := by
    refine List.forall₂_iff_get.mpr ⟨X.len, fun i h1 h2 => ?_⟩
    obtain ⟨c', h3, h4⟩ := X.get (List.getElem?_eq_getElem h1)
    rw [List.getElem?_eq_getElem h2] at h3
    cases h3
    exact h4
  exact List.forall₂_take _ (List.forall₂_drop _ h)

omit X in
theorem isNames {p : Nat} {e : Int} {cs cs' : U16Str} {new : List (Entry Syl)} (h : List.Forall₂ (Kin ct) cs cs')
    (hn : IsNames p e cs new) : IsNames p e cs' new := by
  have hl := h.length_eq
  refine ⟨hn.1.trans hl, fun i c' x h1 h2 => ?_⟩
  obtain ⟨hi, rfl⟩ := List.getElem?_eq_some_iff.mp h1
  have hi' : i < cs.length := hl ▸ hi
  obtain ⟨k1, k2, snd, cls, k3, k4, k5⟩ := hn.2 i cs[i] x (List.getElem?_eq_getElem hi') h2
  have hk : Kin ct cs[i] cs'[i] := (List.forall₂_iff_get.mp h).2 i hi' hi
  exact ⟨k1, hl ▸ k2, snd, cls, (hk.sound snd).mp k3, (hk.cls cls).mp k4, k5⟩

theorem abbrNames {p e : Nat} {new : List (Entry Syl)} (h : AbbrNames w p e new) : AbbrNames w' p e new := by
  have hd : w[p]? = some ch!"." ↔ w'[p]? = some ch!"." := ⟨X.keep (by decide +kernel), keep X.symm (by decide +kernel)⟩
  have hx : ∀ {c c' : Nat}, Kin ct c c' → (c = ch!"." ↔ c' = ch!".") := fun h => h.lone_eq (by decide +kernel)
  have hp := X.pieces p e
  refine h.imp (And.imp_left hd.mp) (And.imp (mt hd.mpr) ?_)
  rintro ⟨cs, h1 | ⟨h1, h2⟩, h3⟩
  · rw [h1] at hp
    have e1 := hp.length_eq
    have k1 := List.forall₂_take cs.length hp
    have k2 := List.forall₂_drop cs.length hp
    rw [List.take_left] at k1
    rw [List.drop_left] at k2
    refine ⟨(piece w' p e).take cs.length, .inl ?_, isNames k1 h3⟩
    have k3 : (piece w' p e).drop cs.length = u!"." := by
      generalize (piece w' p e).drop cs.length = l at k2
      cases k2 with
      | cons a b =>
        cases b
        rw [(hx a).mp rfl]
    conv_lhs => rw [← List.take_append_drop cs.length (piece w' p e), k3]
  · rw [h1] at hp
    refine ⟨_, .inr ⟨rfl, fun hm => h2 ?_⟩, isNames hp h3⟩
    obtain ⟨i, hi, he⟩ := List.getElem_of_mem hm
    have hi' : i < cs.length := hp.length_eq ▸ hi
    have hk : Kin ct cs[i] (piece w' p e)[i] := (List.forall₂_iff_get.mp hp).2 i hi' hi
    exact (hx hk).mpr he ▸ List.getElem_mem hi'

theorem wordAt {look : List Nat → Option Str} (hl : ∀ p q, p < q → q ≤ w.length → look (piece w p q) = look (piece w' p q))
    {p q : Nat} {data : Str} (h : WordAt ct w look p t q data) : WordAt ct w' look p t q data := by
  obtain ⟨h1, h2, h3, h4, h5⟩ := h
  refine ⟨h1, X.len ▸ h2, (hl p q h1 h2).symm.trans h3, h4, h5.imp_right fun h => ?_⟩
  rw [← X.len]
  exact X.startAt h

end Resound

section
variable (hct : ct.Ok) {look : List Nat → Option Str} {brk : List Int} (X : Resound ct w w')
  (hl : ∀ p q, p < q → q ≤ w.length → look (piece w p q) = look (piece w' p q))
include hct X hl

theorem ssRule {c c1 : Config} (h : Rule ct w look brk c c1) : Rule ct w' look brk c c1 := by
  have hl' : ∀ p q, p < q → q ≤ w'.length → look (piece w' p q) = look (piece w p q) :=
    fun p q h1 h2 => (hl p q h1 (X.len ▸ h2)).symm
  have hno : ∀ {p t}, (∀ q data, ¬ WordAt ct w look p t q data) → ∀ q data, ¬ WordAt ct w' look p t q data :=
    fun h q data hw => h q data (X.symm.wordAt hl' hw)
  have hna : ∀ {p t : Nat}, (∀ q, ¬ IsAbbr ct w p t q) → ∀ q, ¬ IsAbbr ct w' p t q := fun h q hw => h q (X.symm.isAbbr hw)
  cases h with
  | other h => rw [X.other_piece h]; exact .other (X.otherTo h)
  | word h1 h2 h3 h4 => exact .word (X.tokenTo_iff.mp h1) (X.wordAt hl h2) h3 h4
  | abbr h1 h2 h3 h4 => exact .abbr (X.tokenTo_iff.mp h1) (hno h2) (X.isAbbr h3) (X.abbrNames h4)
  | syl h1 h2 h3 h4 => exact .syl (X.tokenTo_iff.mp h1) (hno h2) (hna h3) (X.spelled hct h4)
  | dot h1 h2 h3 h4 => exact .dot (X.tokenTo_iff.mp h1) (hno h2) (hna h3) (X.keep (by decide +kernel) h4)

theorem ssDeriv {c : Config} (h : RuleDeriv ct w look brk c) : RuleDeriv ct w' look brk c := by
  induction h with
  | refl => exact .refl
  | tail _ h ih => exact ih.tail (ssRule hct X hl h)

theorem ssReading {es : List (Entry Syl)} (h : RuleReading ct w look brk es) : RuleReading ct w' look brk es := by
  obtain ⟨c, h1, h2, rfl⟩ := h
  exact ⟨c, ssDeriv hct X hl h1, X.len ▸ h2, rfl⟩

theorem ssDeadEnd {c : Config} (h : DeadEnd ct w look brk c) : DeadEnd ct w' look brk c := by
  obtain ⟨h1, h2, ⟨x, h3, h4, h5⟩, t, h6, h7⟩ := h
  exact ⟨ssDeriv hct X hl h1, by rw [← X.len]; exact h2, ⟨x, X.keep_no (ld_nocons hct h4) h3, h4, h5⟩, t, X.tokenTo_iff.mp h6,
    fun q data hw => h7 q data (X.symm.wordAt (fun p q h1 h2 => (hl p q h1 (X.len ▸ h2)).symm) hw)⟩

end

end Thpronun
