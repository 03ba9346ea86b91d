import Verif.Lemmas.Grammar
import Verif.Spec.Grammar
import Mathlib.Tactic.DefEqTransformations

/-! # The parser's grammar functions against the spelling rules -/

namespace Thpronun
open Res Spec

variable {ct : CType} {w : U16Str} {t : Nat}

theorem satP_of_sat {α} {r : Res α} {P : α → Prop} (h : Sat r P) : SatP r P := by
  cases r <;> simp_all

/-! ## Text -/

theorem strAt_satP {i : Nat} : (strAt w i).SatP fun c => w[i]? = some c := by
  unfold strAt
  split <;> simp_all

theorem at_iff {i c : Nat} (h : i < t) (hc : w[i]? = some c) (d : Nat) : At w t i d ↔ c = d := by
  unfold At; rw [hc]; simp [h]

theorem not_at {i d : Nat} (h : ¬ i < t) : ¬ At w t i d := fun h' => h h'.1

theorem isCharAt_satP {i c : Nat} : (isCharAt w t i c).SatP fun b => b = true ↔ At w t i c := by
  unfold isCharAt
  split
  · refine SatP.bind strAt_satP fun x hx => ?_
    simp [at_iff ‹_› hx, eq_comm (a := c)]
  · simp [not_at ‹_›]

theorem isSylStart_iff {c : Nat} : isSylStart ct c = true ↔ ct.isCons c = true ∨ ct.isLdVowel c = true := by
  simp [isSylStart]

theorem startAt_iff {i c : Nat} (h : i < t) (hc : w[i]? = some c) : StartAt ct w t i ↔ isSylStart ct c = true := by
  simp [StartAt, at_iff h hc, isSylStart_iff]

theorem endOrSylStart_satP {i : Nat} : (endOrSylStart ct w t i).SatP fun b => b = true ↔ EndOrStart ct w t i := by
  unfold endOrSylStart EndOrStart
  split
  · simp_all
  · refine SatP.bind strAt_satP fun x hx => ?_
    have : i < t := by omega
    simp [startAt_iff this hx]; omega

/-! ## Silenced letters -/

theorem silent_iff {i c : Nat} (h : i + 1 < t) (hc : w[i]? = some c) :
    Silent ct w t i ↔ ct.isCons c = true ∧ w[i + 1]? = some ch!"์" := by
  simp only [Silent, at_iff (show i < t by omega) hc]
  simp [At, h]

theorem karanSimple_satP {i : Nat} : (matchKaranSimple ct w i t).SatP fun k => Skip ct w t i k := by
  unfold matchKaranSimple Skip
  split
  · rename_i h
    refine SatP.bind strAt_satP fun x hx => ?_
    split
    · refine SatP.bind strAt_satP fun y hy => ?_
      have := silent_iff (ct := ct) h hy
      simp only [UTH.THANTHAKHAT] at *
      split <;> simp_all
    · have : ¬ Silent ct w t i := by
        rintro ⟨c, -, -, -, h'⟩
        rw [hx] at h'; cases h'; exact absurd rfl ‹_›
      simp [this]
  · have : ¬ Silent ct w t i := by
      rintro ⟨c, -, -, h', -⟩; omega
    simp [this]

theorem silent2_satP {A : Nat → Prop} [DecidablePred A] {i : Nat} :
    (if i + 2 < t then do
      if UTH.THANTHAKHAT = (← strAt w (i + 2)) then
        if ct.isCons (← strAt w i) then
          let c ← strAt w (i + 1)
          if A c then pure (i + 3) else pure i
        else pure i
      else pure i
    else pure i : Res Nat).SatP fun k => (Silent2 ct w t A i ∧ k = i + 3) ∨ (¬ Silent2 ct w t A i ∧ k = i) := by
  split
  · rename_i h
    refine SatP.bind strAt_satP fun x hx => ?_
    split
    · refine SatP.bind strAt_satP fun y hy => ?_
      split
      · refine SatP.bind strAt_satP fun z hz => ?_
        have : Silent2 ct w t A i ↔ A z := by
          simp only [UTH.THANTHAKHAT] at *
          simp only [Silent2, at_iff (show i < t by omega) hy, at_iff (show i + 1 < t by omega) hz, at_iff h hx]
          simp [*]
        split <;> simp_all
      · have : ¬ Silent2 ct w t A i := by
          rintro ⟨c, d, ⟨-, h1⟩, h2, -⟩
          rw [hy] at h1; cases h1; exact absurd h2 ‹_›
        simp [this]
    · have : ¬ Silent2 ct w t A i := by
        rintro ⟨c, d, -, -, -, -, -, h'⟩
        rw [hx] at h'; cases h'; exact absurd rfl ‹_›
      simp [this]
  · have : ¬ Silent2 ct w t A i := by
      rintro ⟨c, d, -, -, -, -, h', -⟩; omega
    simp [this]

instance : DecidablePred IU := fun c => by unfold IU; infer_instance

theorem karanIU_satP {i : Nat} : (matchKaranIU ct w i t).SatP fun k => SkipIU ct w t i k := by
  have h := silent2_satP (ct := ct) (w := w) (t := t) (A := fun x => IU x) (i := i)
  unfold matchKaranIU
  simp only [show ∀ c : Nat, (UTH.SARA_I = c ∨ UTH.SARA_U = c) ↔ IU c from fun c => or_congr eq_comm eq_comm]
  exact h

theorem karanComplex_satP {i : Nat} : (matchKaranComplex ct w i t).SatP fun k => SkipAny ct w t i k := by
  unfold matchKaranComplex
  refine SatP.bind karanSimple_satP fun k hk => ?_
  rcases hk with ⟨h, rfl⟩ | ⟨h, rfl⟩
  · rw [if_pos (by omega)]
    exact .inl ⟨h, rfl⟩
  · rw [if_neg (by simp)]
    have h2 := silent2_satP (ct := ct) (w := w) (t := t) (A := fun x => ct.isCons x = true ∨ IU x) (i := k)
    simp only [show ∀ c : Nat, (ct.isCons c = true ∨ UTH.SARA_I = c ∨ UTH.SARA_U = c) ↔ (ct.isCons c = true ∨ IU c) from
      fun c => or_congr Iff.rfl (or_congr eq_comm eq_comm)]
    refine SatP.mono h2 fun k' hk' => ?_
    rcases hk' with ⟨h', rfl⟩ | ⟨h', rfl⟩
    · exact .inr (.inl ⟨h, h', rfl⟩)
    · exact .inr (.inr ⟨h, h', rfl⟩)

theorem Spec.Skip.unique {i k k' : Nat} (h : Skip ct w t i k) : Skip ct w t i k' ↔ k' = k := by
  unfold Skip at *
  rcases h with ⟨h, rfl⟩ | ⟨h, rfl⟩ <;> simp [h]

theorem Spec.SkipIU.unique {i k k' : Nat} (h : SkipIU ct w t i k) : SkipIU ct w t i k' ↔ k' = k := by
  unfold SkipIU at *
  rcases h with ⟨h, rfl⟩ | ⟨h, rfl⟩ <;> simp [h]

theorem Spec.SkipAny.unique {i k k' : Nat} (h : SkipAny ct w t i k) : SkipAny ct w t i k' ↔ k' = k := by
  unfold SkipAny at *
  rcases h with ⟨h, rfl⟩ | ⟨h, h2, rfl⟩ | ⟨h, h2, rfl⟩ <;> simp_all

theorem Spec.Skip.ex {i k : Nat} {X : Nat → Prop} (h : Skip ct w t i k) : (∃ k', Skip ct w t i k' ∧ X k') ↔ X k := by
  simp [h.unique]

theorem open_iff {j k : Nat} {v : Vowel} {f : EndConsClass} {m : Tone} {r : Rime} (h : Skip ct w t j k) :
    Open ct w t j v f m r ↔ r = ⟨k, false, v, f, m⟩ := h.ex

/-! ## Tone marks -/

theorem Spec.MarkAt.unique {i : Nat} {m m' : Tone} {k k' : Nat} (h : MarkAt ct w t i m k) :
    MarkAt ct w t i m' k' ↔ m' = m ∧ k' = k := by
  unfold MarkAt at *
  have key : ∀ {c m m'}, (c, m) ∈ marks → (c, m') ∈ marks → m' = m := by
    intro c m m'
    simp only [marks, List.mem_cons, Prod.mk.injEq, List.not_mem_nil, or_false]
    rintro (⟨rfl, rfl⟩ | ⟨rfl, rfl⟩ | ⟨rfl, rfl⟩ | ⟨rfl, rfl⟩) <;> simp
  rcases h with ⟨c, hc, h1, h2, rfl⟩ | ⟨h1, rfl, rfl⟩
  · constructor
    · rintro (⟨d, hd, -, h4, rfl⟩ | ⟨h3, -, -⟩)
      · have : c = d := (at_iff hc.1 hc.2 d).mp hd
        subst this
        exact ⟨key h2 h4, rfl⟩
      · rw [h3 c hc] at h1; cases h1
    · rintro ⟨rfl, rfl⟩
      exact .inl ⟨c, hc, h1, h2, rfl⟩
  · constructor
    · rintro (⟨d, hd, h3, -⟩ | ⟨-, rfl, rfl⟩)
      · rw [h1 d hd] at h3; cases h3
      · exact ⟨rfl, rfl⟩
    · rintro ⟨rfl, rfl⟩
      exact .inr ⟨h1, rfl, rfl⟩

theorem Spec.MarkAt.ex {i : Nat} {m : Tone} {k : Nat} {X : Tone → Nat → Prop} (h : MarkAt ct w t i m k) :
    (∃ m' k', MarkAt ct w t i m' k' ∧ X m' k') ↔ X m k := by
  constructor
  · rintro ⟨m', k', h', hx⟩
    obtain ⟨rfl, rfl⟩ := h.unique.mp h'
    exact hx
  · intro hx; exact ⟨m, k, h, hx⟩

theorem markAt_end {i : Nat} (h : ¬ i < t) : MarkAt ct w t i .SAMAN i :=
  .inr ⟨fun _ hc => absurd hc (not_at h), rfl, rfl⟩

theorem readTone_satP (hct : ct.Ok) {p : PartialSyl} {c : Nat} (hp : p.pos < t) (hc : w[p.pos]? = some c)
    (ht : p.tone = .SAMAN) : (readTone ct p c).SatP fun q => ∃ m k, MarkAt ct w t p.pos m k ∧
      ((k = p.pos ∧ ct.isTone c = false) ∨ (k = p.pos + 1 ∧ ct.isTone c = true)) ∧
      (m = .SAMAN ↔ k = p.pos) ∧ q = { p with tone := m, pos := k } := by
  unfold readTone
  split
  · rename_i h
    have h4 := hct.tone c h
    have : (thCharToTone c).Sat fun m => (c, m) ∈ marks ∧ m ≠ .SAMAN := by
      have key : ∀ i < 4, (thCharToTone (0x0e48 + i)).Sat fun m => (0x0e48 + i, m) ∈ marks ∧ m ≠ .SAMAN := by decide +kernel
      exact forall_range (P := fun c => (thCharToTone c).Sat fun m => (c, m) ∈ marks ∧ m ≠ .SAMAN) 0x0e48 4 key c h4.1
        (by omega)
    refine SatP.bind (satP_of_sat this) fun m hm => ?_
    refine ⟨m, p.pos + 1, .inl ⟨c, ⟨hp, hc⟩, h, hm.1, rfl⟩, .inr ⟨rfl, h⟩, ?_, rfl⟩
    simp [hm.2]
  · rename_i h
    have h : ct.isTone c = false := by simpa using h
    refine ⟨.SAMAN, p.pos, .inr ⟨?_, rfl, rfl⟩, .inl ⟨rfl, h⟩, by simp, by rw [← ht]⟩
    intro d hd
    rw [← (at_iff hp hc d).mp hd]
    exact h

/-! ## What a function emits -/

/-- The rime of an emitted state. -/
def rimeOf (e : Emit) : Rime := ⟨e.pos, e.linked, e.p.vowel, e.p.eConsClass, e.p.tone⟩

/-- The same onset. -/
def Same (p q : PartialSyl) : Prop :=
  q.pre = p.pre ∧ q.iConsSound = p.iConsSound ∧ q.iConsClass = p.iConsClass ∧ q.iCons2 = p.iCons2

/-- The states `es` have the onset of `p` and exactly the rimes `R`. -/
def Emits (p : PartialSyl) (R : Rime → Prop) (es : List Emit) : Prop :=
  (∀ e ∈ es, Same p e.p) ∧ ∀ r, R r ↔ ∃ e ∈ es, rimeOf e = r

theorem emits_nil {p : PartialSyl} {R : Rime → Prop} (h : ∀ r, ¬ R r) : Emits p R [] :=
  ⟨by simp, by simpa using h⟩

theorem emits_one {p : PartialSyl} {R : Rime → Prop} {e : Emit} (h : ∀ r, R r ↔ r = rimeOf e)
    (h1 : Same p e.p := by exact ⟨rfl, rfl, rfl, rfl⟩) : Emits p R [e] :=
  ⟨by simpa using h1, fun r => by rw [h r]; simp [eq_comm]⟩

theorem Emits.app {p : PartialSyl} {R S Q : Rime → Prop} {a b : List Emit} (h : Emits p R a) (h' : Emits p S b)
    (hq : ∀ r, Q r ↔ R r ∨ S r) : Emits p Q (a ++ b) := by
  refine ⟨fun e he => (List.mem_append.mp he).elim (h.1 e) (h'.1 e), fun r => ?_⟩
  rw [hq, h.2, h'.2]
  constructor
  · rintro (⟨e, he, rfl⟩ | ⟨e, he, rfl⟩)
    · exact ⟨e, List.mem_append_left _ he, rfl⟩
    · exact ⟨e, List.mem_append_right _ he, rfl⟩
  · rintro ⟨e, he, rfl⟩
    exact (List.mem_append.mp he).imp (fun h => ⟨e, h, rfl⟩) fun h => ⟨e, h, rfl⟩

theorem Emits.congr {p : PartialSyl} {R S : Rime → Prop} {a : List Emit} (h : Emits p R a) (hq : ∀ r, S r ↔ R r) :
    Emits p S a := ⟨h.1, fun r => by rw [hq, h.2]⟩

theorem Emits.same {p q : PartialSyl} {R : Rime → Prop} {a : List Emit} (h : Emits q R a)
    (hs : Same p q := by exact ⟨rfl, rfl, rfl, rfl⟩) : Emits p R a := by
  refine ⟨fun e he => ?_, h.2⟩
  obtain ⟨h1, h2, h3, h4⟩ := h.1 e he
  obtain ⟨g1, g2, g3, g4⟩ := hs
  exact ⟨h1.trans g1, h2.trans g2, h3.trans g3, h4.trans g4⟩

theorem karanEmit_satP {p : PartialSyl} : (karanEmit ct w t p).SatP fun x =>
    ∃ k, Skip ct w t p.pos k ∧ x = ({ p with pos := k }, [⟨k, false, { p with pos := k }⟩]) := by
  unfold karanEmit
  refine SatP.bind karanSimple_satP fun k hk => ?_
  exact ⟨k, hk, rfl⟩

theorem karanEmit_bind {α : Type} {p : PartialSyl} {f : PartialSyl × List Emit → Res α} {P : α → Prop}
    (h : ∀ k, Skip ct w t p.pos k → (f ({ p with pos := k }, [⟨k, false, { p with pos := k }⟩])).SatP P) :
    (karanEmit ct w t p >>= f).SatP P := by
  refine SatP.bind karanEmit_satP ?_
  rintro _ ⟨k, hk, rfl⟩
  exact h k hk

/-! ## Finals -/

theorem endConsOf_satP (hct : ct.Ok) {c : Nat} {excl : List Nat} : (endConsOf ct c excl).SatP fun x =>
    ∀ f, (ct.isCons c = true ∧ c ∈ finalLetters f ∧ f ≠ .NONE ∧ c ∉ excl) ↔ x = some f := by
  unfold endConsOf
  split
  · rename_i h
    obtain ⟨s, h1, h2⟩ := C02_final c (cons_isConsonant hct h)
    have hu : ∀ f, c ∈ finalLetters f ↔ s = f := by
      intro f
      constructor
      · intro hf
        have := C02_final_conv f c hf
        rw [h1] at this; cases this; rfl
      · rintro rfl; exact h2
    rw [h1]
    simp only [ok_bind]
    split
    · rename_i h3
      intro f
      simp only [hu, Option.some.injEq]
      constructor
      · rintro ⟨-, h, -⟩; exact h
      · rintro rfl; exact ⟨h, rfl, h3.1.symm, h3.2⟩
    · rename_i h3
      intro f
      simp only [hu, reduceCtorEq, iff_false]
      rintro ⟨-, rfl, h4, h5⟩
      exact h3 ⟨h4.symm, h5⟩
  · simp [*]

theorem eatEndConsSimple_emits (hct : ct.Ok) {p : PartialSyl} {excl : List Nat} (hp : p.pos < t) :
    (eatEndConsSimple ct w t p excl).SatP (Emits p (Shut ct w t p.pos excl p.vowel p.tone)) := by
  unfold eatEndConsSimple
  refine SatP.bind strAt_satP fun c hc => SatP.bind (endConsOf_satP hct) fun x hx => ?_
  have hf : ∀ d f, FinalAt ct w t p.pos excl d f ↔ d = c ∧ x = some f := by
    intro d f
    unfold FinalAt
    rw [at_iff hp hc]
    constructor
    · rintro ⟨rfl, h⟩; exact ⟨rfl, (hx f).mp h⟩
    · rintro ⟨rfl, h⟩; exact ⟨rfl, (hx f).mpr h⟩
  cases x with
  | none => exact emits_nil fun r => by simp [Shut, Closed, hf]
  | some e =>
    refine SatP.bind karanComplex_satP fun k hk => ?_
    refine emits_one fun r => ?_
    simp only [Shut, Closed, hf, hk.unique, rimeOf]
    constructor
    · rintro ⟨k', b, f, ⟨c', ⟨rfl, h⟩, rfl, rfl⟩, rfl⟩
      cases h; rfl
    · rintro rfl; exact ⟨_, _, _, ⟨c, ⟨rfl, rfl⟩, rfl, rfl⟩, rfl⟩

theorem emits_ite {p : PartialSyl} {R : Rime → Prop} {c : Prop} [Decidable c] {e : Emit}
    (h : ∀ r, R r ↔ c ∧ r = rimeOf e) (h1 : Same p e.p := by exact ⟨rfl, rfl, rfl, rfl⟩) :
    Emits p R (if c then [e] else []) := by
  split
  · exact emits_one (fun r => by simp [h, *]) h1
  · exact emits_nil fun r => by simp [h, *]

theorem linkPart_emits (hct : ct.Ok) {p : PartialSyl} {c : Nat} :
    (linkPart ct w t p c).SatP (Emits p fun r =>
      (SilentTail ct w t p.pos c ∧ r = ⟨p.pos + 2, false, p.vowel, p.eConsClass, p.tone⟩) ∨
      (Links ct w t p.pos c ∧ r = ⟨p.pos, true, p.vowel, p.eConsClass, p.tone⟩)) := by
  have hlink : ∀ n : Nat, ((n ∈ afterClusterVowels ∨ ct.isCons n = true) ↔ (n ∈ linkVowels ∨ ct.isCons n = true)) :=
    fun n => Iff.rfl
  unfold linkPart
  split
  · rename_i h1
    refine SatP.bind strAt_satP fun d hd => ?_
    have ha := at_iff h1 hd
    by_cases hdc : ct.isCons d = true
    · have hiu : ¬ IU d := by
        have := hct.cons d hdc
        rintro (rfl | rfl) <;> omega
      rw [if_pos hdc]
      have tail : ∀ a, Emits p (fun r => SilentTail ct w t p.pos c ∧
          r = ⟨p.pos + 2, false, p.vowel, p.eConsClass, p.tone⟩) a →
          (if p.pos + 2 = t then (pure a : Res (List Emit)) else do
            let next ← strAt w (p.pos + 2)
            pure (a ++ if next ∈ afterClusterVowels ∨ ct.isCons next = true then [(⟨p.pos, true, p⟩ : Emit)]
              else [])).SatP (Emits p fun r : Rime =>
            (SilentTail ct w t p.pos c ∧ r = ⟨p.pos + 2, false, p.vowel, p.eConsClass, p.tone⟩) ∨
            (Links ct w t p.pos c ∧ r = ⟨p.pos, true, p.vowel, p.eConsClass, p.tone⟩)) := by
        intro a hae
        split
        · rename_i h2
          have : ¬ Links ct w t p.pos c := by
            rintro (⟨x, n, -, -, h3, -⟩ | ⟨x, h3, h4, -⟩)
            · exact absurd h3.1 (by omega)
            · rw [← (ha _).mp h3, hdc] at h4; cases h4
          exact hae.congr fun r => by simp [this]
        · rename_i h2
          have h2 : p.pos + 2 < t := by omega
          refine SatP.bind strAt_satP fun n hn => ?_
          refine hae.app (emits_ite fun r => Iff.rfl) fun r => or_congr Iff.rfl (and_congr ?_ Iff.rfl)
          simp [Links, ha, at_iff h2 hn, hlink, hdc]
      dsimp only
      split
      · rename_i h2
        refine SatP.bind endOrSylStart_satP fun b hb => ?_
        have hst : SilentTail ct w t p.pos c ↔ b = true := by
          rw [hb]
          unfold SilentTail
          refine and_iff_left (.inl ⟨(ha _).mpr h2.1.symm, ?_, h2.2⟩)
          rw [← hdc, ← h2.1]; rfl
        split
        · exact tail _ (emits_one fun r => by simp [hst, *, rimeOf])
        · exact tail _ (emits_nil fun r => by simp [hst, *])
      · rename_i h2
        refine tail _ (emits_nil fun r => ?_)
        rintro ⟨⟨-, ⟨h3, -, h4⟩ | ⟨x, h3, h4, -⟩⟩, -⟩
        · exact h2 ⟨((ha _).mp h3).symm, h4⟩
        · rw [← (ha _).mp h3] at h4; exact hiu h4
    · rw [if_neg hdc]
      have hro : ¬ (At w t (p.pos + 1) ch!"ร" ∧ ct.isCons ch!"ร" = true ∧ c ∈ u!"กคชตท") := by
        rintro ⟨h, h', -⟩
        rw [ha] at h; subst h; exact hdc h'
      have hst : SilentTail ct w t p.pos c ↔ EndOrStart ct w t (p.pos + 2) ∧ IU d ∧ c ∈ u!"ฒตธร" := by
        simp only [SilentTail, hro, false_or]
        simp only [ha]
        simp
      have hli : Links ct w t p.pos c ↔ d ∈ linkVowels ∧ ¬ (IU d ∧ c ∈ u!"ฒตธร" ∧ p.pos + 2 = t) := by
        simp only [Links, ha]
        simp [hdc]
      have hl2 : ∀ r, ((d ∈ afterClusterVowels ∨ ct.isCons d = true) ∧ r = rimeOf ⟨p.pos, true, p⟩) ↔
          (d ∈ linkVowels ∧ r = ⟨p.pos, true, p.vowel, p.eConsClass, p.tone⟩) := by
        intro r
        rw [hlink]
        simp [hdc, rimeOf]
      split
      · rename_i h2
        have hiu : IU d := h2.imp Eq.symm Eq.symm
        have hlv : d ∈ linkVowels := by rcases hiu with rfl | rfl <;> decide
        have tail : ∀ b : Bool, (b = true ↔ SilentTail ct w t p.pos c) →
            (if b = true then
              if p.pos + 2 = t then (pure [⟨p.pos + 2, false, p⟩] : Res (List Emit))
              else pure ([⟨p.pos + 2, false, p⟩] ++
                if d ∈ afterClusterVowels ∨ ct.isCons d = true then [⟨p.pos, true, p⟩] else [])
            else pure (if d ∈ afterClusterVowels ∨ ct.isCons d = true then [⟨p.pos, true, p⟩] else [])).SatP
            (Emits p fun r : Rime =>
            (SilentTail ct w t p.pos c ∧ r = ⟨p.pos + 2, false, p.vowel, p.eConsClass, p.tone⟩) ∨
            (Links ct w t p.pos c ∧ r = ⟨p.pos, true, p.vowel, p.eConsClass, p.tone⟩)) := by
          intro b hb
          split
          · have hb := hb.mp ‹_›
            split
            · have : ¬ Links ct w t p.pos c := by
                rw [hli]; exact fun h => h.2 ⟨hiu, (hst.mp hb).2.2, ‹_›⟩
              exact emits_one fun r => by simp [hb, this, rimeOf]
            · have : Links ct w t p.pos c := hli.mpr ⟨hlv, fun h => absurd h.2.2 ‹_›⟩
              refine (emits_one fun r => Iff.rfl).app (emits_ite fun r => (hl2 r).symm) fun r => ?_
              simp [hb, this, hlv, rimeOf]
          · have hb : ¬ SilentTail ct w t p.pos c := fun h => absurd (hb.mpr h) ‹_›
            have : Links ct w t p.pos c := hli.mpr ⟨hlv, fun h => hb (hst.mpr ⟨.inl (by omega), h.1, h.2.1⟩)⟩
            exact (emits_ite fun r => (hl2 r).symm).congr fun r => by simp [hb, this, hlv]
        dsimp only
        split
        · rename_i h3
          refine SatP.bind endOrSylStart_satP fun b hb => tail b ?_
          rw [hb, hst]
          exact (and_iff_left ⟨hiu, h3⟩).symm
        · rename_i h3
          refine tail false ?_
          simp only [Bool.false_eq_true, false_iff, hst]
          exact fun h => h3 h.2.2
      · rename_i h2
        have hiu : ¬ IU d := fun h => h2 (h.imp Eq.symm Eq.symm)
        refine (emits_ite fun r => (hl2 r).symm).congr fun r => ?_
        simp [hst, hli, hiu]
  · rename_i h1
    refine emits_nil fun r => ?_
    rintro (⟨⟨-, ⟨h, -⟩ | ⟨x, h, -⟩⟩, -⟩ | ⟨⟨x, n, h, -⟩ | ⟨x, h, -⟩, -⟩) <;> exact h1 h.1

theorem eatEndConsComplex_emits (hct : ct.Ok) {p : PartialSyl} {excl : List Nat} (hp : p.pos < t) :
    (eatEndConsComplex ct w t p excl).SatP (Emits p (ShutX ct w t p.pos excl p.vowel p.tone)) := by
  unfold eatEndConsComplex
  refine SatP.bind strAt_satP fun c hc => SatP.bind (endConsOf_satP hct) fun x hx => ?_
  have hf : ∀ d f, FinalAt ct w t p.pos excl d f ↔ d = c ∧ x = some f := by
    intro d f
    unfold FinalAt
    rw [at_iff hp hc]
    constructor
    · rintro ⟨rfl, h⟩; exact ⟨rfl, (hx f).mp h⟩
    · rintro ⟨rfl, h⟩; exact ⟨rfl, (hx f).mpr h⟩
  cases x with
  | none => exact emits_nil fun r => by simp [ShutX, ClosedX, hf]
  | some e =>
    have hX : ∀ r, ShutX ct w t p.pos excl p.vowel p.tone r ↔ ∃ k b, r = ⟨k, b, p.vowel, e, p.tone⟩ ∧
        ((b = false ∧ SkipAny ct w t (p.pos + 1) k) ∨ (SkipAny ct w t (p.pos + 1) (p.pos + 1) ∧
          ((b = false ∧ k = p.pos + 2 ∧ SilentTail ct w t p.pos c) ∨ (b = true ∧ k = p.pos ∧ Links ct w t p.pos c)))) := by
      intro r
      simp only [ShutX, ClosedX, hf]
      constructor
      · rintro ⟨k, b, f, ⟨c', ⟨rfl, h⟩, h2⟩, rfl⟩
        cases h
        exact ⟨k, b, rfl, h2⟩
      · rintro ⟨k, b, rfl, h⟩
        exact ⟨k, b, e, ⟨c, ⟨rfl, rfl⟩, h⟩, rfl⟩
    refine SatP.bind karanComplex_satP fun k hk => ?_
    dsimp only
    split
    · have : ¬ p.pos + 1 = k := by omega
      refine emits_one fun r => ?_
      simp only [hX, hk.unique, rimeOf, this, false_and, or_false]
      constructor
      · rintro ⟨_, _, rfl, rfl, rfl⟩; rfl
      · rintro rfl; exact ⟨_, _, rfl, rfl, rfl⟩
    · have hk' : k = p.pos + 1 := by
        unfold SkipAny at hk; dsimp only at *; omega
      subst hk'
      refine SatP.bind (linkPart_emits hct) fun b hb => ?_
      refine Emits.app (emits_one fun r => Iff.rfl) hb.same fun r => ?_
      simp only [hX, hk.unique, rimeOf, true_and]
      constructor
      · rintro ⟨_, _, rfl, ⟨rfl, rfl⟩ | ⟨rfl, rfl, h⟩ | ⟨rfl, rfl, h⟩⟩
        · exact .inl rfl
        · exact .inr (.inl ⟨h, rfl⟩)
        · exact .inr (.inr ⟨h, rfl⟩)
      · rintro (rfl | ⟨h, rfl⟩ | ⟨h, rfl⟩)
        · exact ⟨_, _, rfl, .inl ⟨rfl, rfl⟩⟩
        · exact ⟨_, _, rfl, .inr (.inl ⟨rfl, rfl, h⟩)⟩
        · exact ⟨_, _, rfl, .inr (.inr ⟨rfl, rfl, h⟩)⟩

theorem shut_lt {j : Nat} {excl : List Nat} {v : Vowel} {m : Tone} {r : Rime} (h : Shut ct w t j excl v m r) :
    j < t := by
  obtain ⟨_, _, _, ⟨_, h, -⟩, -⟩ := h
  exact h.1.1

theorem shutX_lt {j : Nat} {excl : List Nat} {v : Vowel} {m : Tone} {r : Rime} (h : ShutX ct w t j excl v m r) :
    j < t := by
  obtain ⟨_, _, _, ⟨_, h, -⟩, -⟩ := h
  exact h.1.1

theorem eatEndConsSimple_same (hct : ct.Ok) {p q : PartialSyl} {excl : List Nat} (hp : q.pos < t)
    (hs : Same p q := by exact ⟨rfl, rfl, rfl, rfl⟩) :
    (eatEndConsSimple ct w t q excl).SatP (Emits p (Shut ct w t q.pos excl q.vowel q.tone)) :=
  SatP.mono (eatEndConsSimple_emits hct hp) fun _ h => h.same hs

theorem eatEndConsComplex_same (hct : ct.Ok) {p q : PartialSyl} {excl : List Nat} (hp : q.pos < t)
    (hs : Same p q := by exact ⟨rfl, rfl, rfl, rfl⟩) :
    (eatEndConsComplex ct w t q excl).SatP (Emits p (ShutX ct w t q.pos excl q.vowel q.tone)) :=
  SatP.mono (eatEndConsComplex_emits hct hp) fun _ h => h.same hs

/-! ## Rimes after a consonant -/

theorem hanAkat_emits (hct : ct.Ok) {p : PartialSyl} {j : Nat} (hj : p.pos = j + 1) (ht : p.tone = .SAMAN)
    (hat : At w t j ch!"ั") : (hanAkat ct w t p).SatP (Emits p (HanRime ct w t j)) := by
  unfold hanAkat
  split
  · refine emits_nil fun r => ?_
    have h : ¬ j + 1 < t := by omega
    simp only [HanRime, (markAt_end (ct := ct) (w := w) h).ex, not_at h, false_and, not_false_eq_true, true_and, false_or]
    rintro ⟨-, h' | h'⟩
    · exact h (shutX_lt h')
    · exact h (shut_lt h'.2)
  · rename_i hp
    have hp : p.pos < t := by omega
    refine SatP.bind strAt_satP fun c hc => SatP.bind (readTone_satP hct hp hc ht) ?_
    rintro q ⟨m, k, hm, -, -, rfl⟩
    rw [hj] at hm
    dsimp only
    split
    · refine emits_nil fun r => ?_
      have h : ¬ k < t := by omega
      simp only [HanRime, hm.ex, not_at h, false_and, not_false_eq_true, true_and, false_or]
      rintro ⟨-, h' | h'⟩
      · exact h (shutX_lt h'.2)
      · exact h (shut_lt h'.2)
    · rename_i hk
      have hk : k < t := by omega
      refine SatP.bind strAt_satP fun d hd => ?_
      have ha := at_iff hk hd
      split
      · rename_i hw
        have hw : d = ch!"ว" := hw.symm
        refine SatP.bind isCharAt_satP fun b hb => ?_
        split
        · rename_i h1
          have h1 := hb.mp h1
          refine karanEmit_bind fun k' hk' => ?_
          refine emits_one fun r => ?_
          simp only [HanRime, hm.ex, ha, hw, open_iff hk', hat, true_and, rimeOf, not_true_eq_false, false_and, or_false]
          have h1 : At w t (k + 1) ch!"ะ" := h1
          simp [h1]
        · rename_i h1
          have h1 : ¬ At w t (k + 1) ch!"ะ" := fun h => h1 (hb.mpr h)
          refine karanEmit_bind fun k' hk' => ?_
          refine emits_one fun r => ?_
          simp only [HanRime, hm.ex, ha, hw, open_iff hk', hat, true_and, rimeOf, not_true_eq_false, false_and, or_false]
          simp [h1]
      · rename_i hw
        have hw : ¬ d = ch!"ว" := fun h => hw h.symm
        split
        · rename_i hmt
          have hmt : m = .SAMAN := hmt.symm
          refine SatP.mono (eatEndConsComplex_same hct hk) fun es he => he.congr fun r => ?_
          simp only [HanRime, hm.ex, ha, hw, hat]
          simp [hmt]
        · rename_i hmt
          have hmt : ¬ m = .SAMAN := fun h => hmt h.symm
          refine SatP.mono (eatEndConsSimple_same hct hk) fun es he => he.congr fun r => ?_
          simp only [HanRime, hm.ex, ha, hw, hat]
          simp [hmt]

theorem signFinal_lt {k : Nat} {v : Vowel} {m : Tone} {r : Rime} (h : SignFinal ct w t k v m r) : k < t := by
  rcases h with ⟨-, ⟨-, h, -⟩ | ⟨-, -, h⟩ | ⟨-, -, h⟩ | ⟨-, -, -, h⟩⟩
  · exact h.1
  · exact shut_lt h
  · exact shut_lt h
  · exact shutX_lt h

theorem upBlEnd_emits (hct : ct.Ok) {p : PartialSyl} :
    (upBlEnd ct w t p).SatP (Emits p (SignFinal ct w t p.pos p.vowel p.tone)) := by
  unfold upBlEnd
  split
  · rename_i hp
    refine SatP.bind strAt_satP fun c hc => ?_
    have ha := at_iff hp hc
    have hl : (∀ d, At w t p.pos d → ct.isLdVowel d = false) ↔ ct.isLdVowel c = false := by simp [ha]
    split
    · rename_i h
      exact emits_nil fun r => by simp [SignFinal, hl, h]
    · rename_i h
      have h := hl.mpr (by simpa using h)
      split
      · rename_i hv
        have hv : p.vowel = VW.UEE := hv.symm
        split
        · rename_i ho
          refine karanEmit_bind fun k hk => emits_one fun r => ?_
          have ho : c = ch!"อ" := ho.symm
          rw [SignFinal, and_iff_right h]
          simp only [hv, open_iff hk, ha, ho, true_and, rimeOf]
          simp
        · rename_i ho
          have ho : ¬ c = ch!"อ" := fun h => ho h.symm
          refine SatP.mono (eatEndConsSimple_emits hct hp) fun es he => he.congr fun r => ?_
          rw [SignFinal, and_iff_right h]
          simp only [hv, ha, ho]
          simp
      · rename_i hv
        have hv : ¬ p.vowel = VW.UEE := fun h => hv h.symm
        have e : (if VW.I = p.vowel ∨ VW.II = p.vowel then [UTH.YO_YAK] else []) =
            if p.vowel = VW.I ∨ p.vowel = VW.II then u!"ย" else [] := by
          simp only [eq_comm, UTH.YO_YAK]
        dsimp only
        rw [e]
        split
        · rename_i h2
          refine SatP.mono (eatEndConsSimple_emits hct hp) fun es he => he.congr fun r => ?_
          rw [SignFinal, and_iff_right h]
          rcases h2 with h2 | h2
          · have h2 : p.vowel = VW.UE := h2.symm
            have h3 : VW.UE ≠ VW.UEE := by decide
            simp [h2, h3]
          · simp [hv, h2.symm]
        · rename_i h2
          refine SatP.mono (eatEndConsComplex_emits hct hp) fun es he => he.congr fun r => ?_
          rw [SignFinal, and_iff_right h]
          simp only [not_or, ne_eq, Decidable.not_not] at h2
          simp [hv, h2.2.symm, Ne.symm h2.1]
  · rename_i hp
    exact emits_nil fun r h => hp (signFinal_lt h)

theorem upBlOpen_satP {p : PartialSyl} : (upBlOpen ct w t p).SatP fun b =>
    b = true ↔ ¬ (p.vowel = VW.UEE ∧ ∃ c, At w t p.pos c ∧ ct.isLdVowel c = false) := by
  unfold upBlOpen
  split
  · rename_i h
    have h : ¬ p.pos < t := by omega
    simp [not_at h]
  · rename_i h
    have h : p.pos < t := by omega
    refine SatP.bind strAt_satP fun c hc => ?_
    have ha := at_iff h hc
    simp only [ha]
    split
    · simp [*]
    · rename_i h1
      have h1 : ct.isLdVowel c = false := by simpa using h1
      simp only [pure_eq, satP_ok, exists_eq_left', h1, and_true, decide_eq_true_eq, ne_eq]
      exact not_congr ⟨Eq.symm, Eq.symm⟩

theorem mapAt_mem' {κ ν} [DecidableEq κ] {tbl : List (κ × ν)} {k : κ} {v : ν} (h : mapAt tbl k = .ok v) :
    (k, v) ∈ tbl := by
  induction tbl with
  | nil => simp [mapAt] at h
  | cons a t ih =>
    unfold mapAt at h
    split at h
    · rename_i he
      cases h
      rw [← he]
      exact List.mem_cons_self
    · exact List.mem_cons_of_mem _ (ih h)

theorem signVowel_satP {c : Nat} : (thCharToAboveBelowVowel c).SatP fun v => ∀ v', (c, v') ∈ signVowels ↔ v' = v := by
  rw [satP_iff]
  intro v h v'
  have h := mapAt_mem' h
  simp only [List.mem_cons, Prod.mk.injEq, List.not_mem_nil, or_false] at h
  rcases h with ⟨rfl, rfl⟩ | ⟨rfl, rfl⟩ | ⟨rfl, rfl⟩ | ⟨rfl, rfl⟩ | ⟨rfl, rfl⟩ | ⟨rfl, rfl⟩ <;>
    simp [signVowels, UTH.SARA_I, UTH.SARA_II, UTH.SARA_UE, UTH.SARA_UEE, UTH.SARA_U, UTH.SARA_UU]

theorem signRime_iff {j c k : Nat} {v : Vowel} {m : Tone} {r : Rime} (hc : At w t j c)
    (hs : ct.isUpVowel c = true ∨ ct.isBlVowel c = true) (hv : ∀ v', (c, v') ∈ signVowels ↔ v' = v)
    (hm : MarkAt ct w t (j + 1) m k) : SignRime ct w t j r ↔
    (((v = VW.UEE ∧ ∃ c, At w t k c ∧ ct.isLdVowel c = false) ∧ SignFinal ct w t k v m r) ∨
     (¬ (v = VW.UEE ∧ ∃ c, At w t k c ∧ ct.isLdVowel c = false) ∧
       ((Silent ct w t k ∧ (r = ⟨k + 2, false, v, .NONE, m⟩ ∨ SignFinal ct w t (k + 2) v m r)) ∨
        (¬ Silent ct w t k ∧ Silent2 ct w t IU k ∧ r = ⟨k + 3, false, v, .NONE, m⟩) ∨
        (¬ Silent ct w t k ∧ ¬ Silent2 ct w t IU k ∧
          (r = ⟨k, false, v, .NONE, m⟩ ∨ SignFinal ct w t k v m r))))) := by
  unfold SignRime
  rw [and_assoc]
  constructor
  · rintro ⟨c', v', m', k', hc', -, hv', hm', h⟩
    have := (at_iff hc.1 hc.2 _).mp hc'
    subst this
    obtain rfl := (hv v').mp hv'
    obtain ⟨rfl, rfl⟩ := hm.unique.mp hm'
    exact h
  · intro h
    exact ⟨c, v, m, k, hc, hs, (hv v).mpr rfl, hm, h⟩

theorem upBlVowel_emits (hct : ct.Ok) {p : PartialSyl} {c : Nat} (ht : p.tone = .SAMAN) (hc : At w t p.pos c)
    (hs : ct.isUpVowel c = true ∨ ct.isBlVowel c = true) :
    (upBlVowel ct w t p c).SatP (Emits p (SignRime ct w t p.pos)) := by
  unfold upBlVowel
  refine SatP.bind signVowel_satP fun v hv => ?_
  have main : ∀ m k, MarkAt ct w t (p.pos + 1) m k → (do
      let p := { p with pos := k, vowel := v, tone := m }
      if ← upBlOpen ct w t p then
        let p := { p with eConsClass := .NONE }
        let k ← matchKaranSimple ct w p.pos t
        if k = p.pos then
          let k2 ← matchKaranIU ct w p.pos t
          if k2 ≠ p.pos then pure [⟨k2, false, p⟩]
          else do
            let es ← upBlEnd ct w t p
            pure ([⟨p.pos, false, p⟩] ++ es)
        else
          let p := { p with pos := k }
          let es ← upBlEnd ct w t p
          pure ([⟨k, false, p⟩] ++ es)
      else upBlEnd ct w t p : Res (List Emit)).SatP (Emits p (SignRime ct w t p.pos)) := by
    intro m k hm
    have hr := fun r => signRime_iff (r := r) hc hs hv hm
    refine SatP.bind upBlOpen_satP fun b hb => ?_
    dsimp only at hb
    generalize (v = VW.UEE ∧ ∃ c, At w t k c ∧ ct.isLdVowel c = false) = O at *
    split
    · rename_i h
      have hb := hb.mp h
      refine SatP.bind karanSimple_satP fun k1 hk1 => ?_
      dsimp only at hk1 ⊢
      split
      · rename_i h1
        subst h1
        have hsi : ¬ Silent ct w t k1 := by
          unfold Skip at hk1; rintro h; simp [h] at hk1
        refine SatP.bind karanIU_satP fun k2 hk2 => ?_
        split
        · rename_i h2
          unfold SkipIU at hk2
          have hk2 : Silent2 ct w t IU k1 ∧ k2 = k1 + 3 := hk2.resolve_right fun h => h2 h.2
          refine emits_one fun r => ?_
          simp only [hr, hb, hsi, hk2]
          simp [rimeOf]
        · rename_i h2
          have h2 : k2 = k1 := Decidable.not_not.mp h2
          subst h2
          have hsj : ¬ Silent2 ct w t IU k2 := by
            unfold SkipIU at hk2; rintro h; simp [h] at hk2
          refine SatP.bind (upBlEnd_emits hct) fun es he => ?_
          refine (emits_one fun r => Iff.rfl).app he.same fun r => ?_
          simp only [hr]
          simp [rimeOf, hb, hsi, hsj]
      · rename_i h1
        unfold Skip at hk1
        have hk1 : Silent ct w t k ∧ k1 = k + 2 := hk1.resolve_right fun h => h1 h.2
        refine SatP.bind (upBlEnd_emits hct) fun es he => ?_
        refine (emits_one fun r => Iff.rfl).app he.same fun r => ?_
        simp only [hr, hk1]
        simp [rimeOf, hb]
    · rename_i h
      have hb : O := by
        refine Classical.not_not.mp fun h' => h (hb.mpr h')
      refine SatP.mono (upBlEnd_emits hct) fun es he => he.same.congr fun r => ?_
      simp only [hr]
      simp [hb]
  dsimp only
  split
  · rename_i hp
    refine SatP.bind strAt_satP fun d hd => ?_
    refine SatP.bind (readTone_satP hct hp hd ht) ?_
    rintro q ⟨m, k, hm, -, -, rfl⟩
    exact main m k hm
  · rename_i hp
    have := main _ _ (markAt_end hp)
    rw [← ht] at this
    exact this

theorem maitaikhuO_emits (hct : ct.Ok) {p : PartialSyl} (ht : p.tone = .SAMAN) (hc : At w t p.pos ch!"็") :
    (maitaikhuO ct w t p).SatP (Emits p (ShortORime ct w t p.pos)) := by
  unfold maitaikhuO
  refine SatP.bind isCharAt_satP fun b hb => ?_
  replace hb : b = true ↔ At w t (p.pos + 1) ch!"อ" := hb
  split
  · rename_i h
    have hb := hb.mp h
    dsimp only
    split
    · rename_i h1
      refine emits_nil fun r => ?_
      rintro ⟨-, -, k, hk, h2⟩
      have := shut_lt h2
      rcases hk with ⟨⟨_, h3, -⟩, -⟩ | ⟨-, rfl⟩
      · have := h3.1; omega
      · omega
    · refine SatP.bind karanSimple_satP fun k hk => ?_
      split
      · rename_i h1
        refine SatP.mono (eatEndConsSimple_same hct h1) fun es he => he.congr fun r => ?_
        rw [ShortORime, and_iff_right hc, and_iff_right hb, hk.ex, ht]
      · rename_i h1
        refine emits_nil fun r => ?_
        rw [ShortORime, and_iff_right hc, and_iff_right hb, hk.ex]
        exact fun h => h1 (shut_lt h)
  · rename_i h
    exact emits_nil fun r hr => h (hb.mpr hr.2.1)

theorem roRua_emits (hct : ct.Ok) {p : PartialSyl} {o : Onset} {k : Nat} (hk : p.pos = k + 1)
    (ho : o.sound = p.iConsSound) (hc : At w t k ch!"ร") :
    (roRua ct w t p).SatP (Emits p (RoRime ct w t o k p.tone)) := by
  have tail : ∀ q k' a, q.pos = k' → q.tone = p.tone → Same p q →
      (if o.sound = .RA then k' = k + 1 else Skip ct w t (k + 1) k') →
      Emits p (fun r => o.sound ≠ .RA ∧ Open ct w t (k + 1) VW.AUU .KON p.tone r) a →
      (do
      if ← isCharAt w t q.pos UTH.RO_RUA then
        let p := { q with pos := q.pos + 1, vowel := VW.A, eConsClass := .KON }
        let k ← matchKaranSimple ct w p.pos t
        let b : List Emit := [⟨k, false, p⟩]
        if k = p.pos ∧ p.pos < t then do
          let es ← eatEndConsComplex ct w t p []
          pure (a ++ b ++ es)
        else pure (a ++ b)
      else pure a).SatP (Emits p (RoRime ct w t o k p.tone)) := by
    rintro q k' a hq hqt hs hk' ha
    have hiff : ∀ r, RoRime ct w t o k p.tone r ↔ (o.sound ≠ .RA ∧ Open ct w t (k + 1) VW.AUU .KON p.tone r) ∨
        (At w t k' ch!"ร" ∧ (Open ct w t (k' + 1) VW.A .KON p.tone r ∨
          (¬ Silent ct w t (k' + 1) ∧ ShutX ct w t (k' + 1) [] VW.A p.tone r))) := by
      intro r
      rw [RoRime, and_iff_right hc]
      refine or_congr Iff.rfl ?_
      constructor
      · rintro ⟨k2, h2, h3⟩
        have : k2 = k' := by
          split at h2
          · rename_i h
            rw [if_pos h] at hk'; rw [h2, hk']
          · rename_i h
            rw [if_neg h] at hk'; exact hk'.unique.mp h2
        subst this
        exact h3
      · intro h; exact ⟨k', hk', h⟩
    rw [hq]
    refine SatP.bind isCharAt_satP fun b hb => ?_
    replace hb : b = true ↔ At w t k' ch!"ร" := hb
    split
    · rename_i h
      have hb := hb.mp h
      refine SatP.bind karanSimple_satP fun k2 hk2 => ?_
      have hB : Emits p (Open ct w t (k' + 1) VW.A .KON p.tone)
          [⟨k2, false, { q with pos := k' + 1, vowel := VW.A, eConsClass := .KON }⟩] := by
        refine Emits.same (q := q) (emits_one fun r => ?_) hs
        rw [open_iff hk2]
        simp [rimeOf, hqt]
      split
      · rename_i h1
        have hsi : ¬ Silent ct w t (k' + 1) := by
          intro h; rw [h1.1] at hk2
          rcases hk2 with ⟨-, h⟩ | ⟨h', -⟩
          · omega
          · exact h' h
        refine SatP.bind (eatEndConsComplex_same (p := q) hct h1.2) fun es he => ?_
        refine ((ha.app hB fun r => Iff.rfl).app (he.same hs) fun r => ?_)
        rw [hiff, and_iff_right hb, or_assoc, and_iff_right hsi, hqt]
      · rename_i h1
        refine ha.app hB fun r => ?_
        rw [hiff, and_iff_right hb]
        refine or_congr Iff.rfl (or_iff_left ?_)
        rintro ⟨h2, h3⟩
        refine h1 ⟨?_, shutX_lt h3⟩
        rcases hk2 with ⟨h, -⟩ | ⟨h', h⟩
        · exact absurd h h2
        · exact h
    · rename_i h
      have hb : ¬ At w t k' ch!"ร" := fun h' => h (hb.mpr h')
      refine ha.congr fun r => ?_
      rw [hiff]
      simp [hb]
  unfold roRua
  split
  · rename_i h
    have h : o.sound ≠ .RA := by rw [ho]; exact h.symm
    refine karanEmit_bind fun k' hk' => ?_
    rw [hk] at hk'
    refine tail { p with pos := k', vowel := VW.AUU, eConsClass := .KON } k' _ rfl rfl ⟨rfl, rfl, rfl, rfl⟩ (by rw [if_neg h]; exact hk')
      (emits_one fun r => ?_)
    rw [open_iff hk', and_iff_right h]
    rfl
  · rename_i h
    have h : o.sound = .RA := by rw [ho]; exact (Decidable.not_not.mp h).symm
    refine tail p (k + 1) _ hk rfl ⟨rfl, rfl, rfl, rfl⟩ (by rw [if_pos h]) (emits_nil fun r => ?_)
    simp [h]

theorem shut_excl {k c : Nat} {e e' : List Nat} {v : Vowel} {m : Tone} {r : Rime} (hc : At w t k c)
    (h : c ∈ e ↔ c ∈ e') : Shut ct w t k e v m r ↔ Shut ct w t k e' v m r := by
  have : ∀ d f, FinalAt ct w t k e d f ↔ FinalAt ct w t k e' d f := by
    intro d f
    simp only [FinalAt, at_iff hc.1 hc.2]
    constructor <;> (rintro ⟨rfl, h1, h2, h3, h4⟩; exact ⟨rfl, h1, h2, h3, by simpa [h] using h4⟩)
  simp only [Shut, Closed, this]

theorem shutX_excl {k c : Nat} {e e' : List Nat} {v : Vowel} {m : Tone} {r : Rime} (hc : At w t k c)
    (h : c ∈ e ↔ c ∈ e') : ShutX ct w t k e v m r ↔ ShutX ct w t k e' v m r := by
  have : ∀ d f, FinalAt ct w t k e d f ↔ FinalAt ct w t k e' d f := by
    intro d f
    simp only [FinalAt, at_iff hc.1 hc.2]
    constructor <;> (rintro ⟨rfl, h1, h2, h3, h4⟩; exact ⟨rfl, h1, h2, h3, by simpa [h] using h4⟩)
  simp only [ShutX, ClosedX, this]

/-- What `consCons` emits. -/
def BareRime (ct : CType) (w : U16Str) (t : Nat) (o : Onset) (l : Bool) (k : Nat) (m : Tone) (r : Rime) : Prop :=
  (o.inherent = none ∧ o.second ≠ SC.WA ∧ l = false ∧ Shut ct w t k u!"ยวอร" VW.O m r) ∨
  (∃ v c, o.inherent = some v ∧ At w t k c ∧ ct.isCons c = true ∧ c ∉ u!"วอร" ∧
    (r = ⟨k, false, v, .NONE, m⟩ ∨ ShutX ct w t k [] v m r))

/-- The vowel of a partial syllable is the inherent vowel. -/
def Inh (o : Onset) (v : Vowel) : Prop :=
  (o.inherent = none ∧ v = VW.INVALID) ∨ (o.inherent = some v ∧ v ≠ VW.INVALID)

theorem consCons_emits (hct : ct.Ok) {p : PartialSyl} {o : Onset} {l : Bool} {c : Nat} (h2 : o.second = p.iCons2)
    (hv : Inh o p.vowel) (hc : At w t p.pos c) (hw : c ∉ u!"วอร") :
    (consCons ct w t l p c).SatP (Emits p (BareRime ct w t o l p.pos p.tone)) := by
  have ha := at_iff hc.1 hc.2
  unfold consCons
  split
  · rename_i hcc
    split
    · rename_i h
      have hv : o.inherent = none := by
        rcases hv with ⟨hv, -⟩ | ⟨-, hv⟩
        · exact hv
        · exact absurd h.symm hv
      obtain ⟨f, h1, h3⟩ := C02_final c (cons_isConsonant hct hcc)
      rw [h1]
      simp only [ok_bind]
      split
      · rename_i h4
        refine SatP.mono (eatEndConsSimple_same hct hc.1) fun es he => he.congr fun r => ?_
        have : c ∈ u!"ยวอร" ↔ c ∈ [UTH.YO_YAK, UTH.WO_WAEN] := by
          simp at hw
          simp [hw, UTH.YO_YAK, UTH.WO_WAEN]
        rw [← shut_excl hc this]
        simp [BareRime, hv, h2, h4.2.2, Ne.symm h4.2.1]
      · rename_i h4
        refine emits_nil fun r => ?_
        rintro (⟨-, h5, h6, h7⟩ | ⟨v, _, h5, -⟩)
        · refine h4 ⟨?_, ?_, h6⟩
          · obtain ⟨_, _, g, ⟨d, hd, -⟩, -⟩ := h7
            have := (ha d).mp hd.1
            subst this
            have := C02_final_conv g c hd.2.2.1
            rw [h1] at this; cases this
            exact hd.2.2.2.1.symm
          · rw [← h2]; exact h5.symm
        · rw [hv] at h5; cases h5
    · rename_i h
      rcases hv with ⟨-, hv⟩ | ⟨hv, -⟩
      · exact absurd hv.symm h
      refine SatP.bind (eatEndConsComplex_same hct hc.1) fun es he => ?_
      refine (emits_one fun r => Iff.rfl).app he fun r => ?_
      have : c ∈ [] ↔ c ∈ [UTH.WO_WAEN] := by
        simp at hw
        simp [hw, UTH.WO_WAEN]
      rw [← shutX_excl hc this]
      simp only [BareRime, hv, ha, rimeOf]
      constructor
      · rintro (⟨h, -⟩ | ⟨v, d, h, rfl, -, -, h3⟩)
        · cases h
        · cases h; exact h3
      · intro h
        exact .inr ⟨_, c, rfl, rfl, hcc, hw, h⟩
  · rename_i h
    refine emits_nil fun r => ?_
    rintro (⟨-, -, -, _, _, f, ⟨d, hd, -⟩, -⟩ | ⟨v, d, -, hd, h3, -⟩)
    · have := (ha d).mp hd.1
      subst this
      exact h hd.2.1
    · have := (ha d).mp hd
      subst this
      exact h h3

theorem plainCons_emits (hct : ct.Ok) {p : PartialSyl} {o : Onset} {l : Bool} {c : Nat} (ht : p.tone = .SAMAN)
    (ho : o.sound = p.iConsSound) (h2 : o.second = p.iCons2) (hv : Inh o p.vowel) (hc : At w t p.pos c) :
    (plainCons ct w t l p c).SatP (Emits p (PlainRime ct w t o l p.pos)) := by
  unfold plainCons
  refine SatP.bind (readTone_satP hct hc.1 hc.2 ht) ?_
  rintro q ⟨m, k, hm, -, -, rfl⟩
  have hr : ∀ r, PlainRime ct w t o l p.pos r ↔ _ := fun r => by unfold PlainRime; exact hm.ex
  dsimp only
  split
  · rename_i hk
    have hk : ¬ k < t := by omega
    refine emits_nil fun r => ?_
    rw [hr]
    simp only [RoRime, not_at hk, false_and, false_or, and_false, or_false, exists_false]
    rintro ⟨-, -, -, h⟩
    exact hk (shut_lt h)
  · rename_i hk
    have hk : k < t := by omega
    refine SatP.bind strAt_satP fun d hd => ?_
    have ha := at_iff hk hd
    have hr : ∀ r, PlainRime ct w t o l p.pos r ↔
       ((d = ch!"ะ" ∧ Open ct w t (k + 1) VW.A .NONE m r) ∨
       (d = ch!"า" ∧ (Open ct w t (k + 1) VW.AA .NONE m r ∨
         ∃ k', Skip ct w t (k + 1) k' ∧ ShutX ct w t k' [] VW.AA m r)) ∨
       (d = ch!"ำ" ∧ Open ct w t (k + 1) VW.A .KOM m r) ∨
       (d = ch!"ว" ∧ Shut ct w t (k + 1) [] VW.UAA m r) ∨
       (d = ch!"อ" ∧ (Open ct w t (k + 1) VW.AUU .NONE m r ∨
         ∃ k', Skip ct w t (k + 1) k' ∧ Shut ct w t k' [] VW.AUU m r)) ∨
       (d = ch!"ร" ∧ RoRime ct w t o k m r) ∨
       (d ∉ u!"ะาำวอร" ∧ BareRime ct w t o l k m r)) := by
      have hco : ct.isCons d = true → d ∉ u!"ะาำ" := by
        intro h
        have := hct.cons d h
        simp only [List.mem_cons, List.not_mem_nil, or_false]
        omega
      have hB : ∀ r, d ∉ u!"ะาำวอร" ∧ BareRime ct w t o l k m r ↔ BareRime ct w t o l k m r := by
        intro r
        refine and_iff_right_of_imp ?_
        have h3 : ct.isCons d = true → d ∉ u!"วอร" → d ∉ u!"ะาำวอร" := by
          intro h h'
          have := hco h
          simp only [List.mem_cons, List.not_mem_nil, or_false] at *
          omega
        rintro (⟨-, -, -, _, _, f, ⟨d', hd', -⟩, -⟩ | ⟨v, d', -, hd', h4, h5, -⟩)
        · obtain rfl := (ha d').mp hd'.1
          refine h3 hd'.2.1 fun h => hd'.2.2.2.2 (List.mem_cons_of_mem _ h)
        · obtain rfl := (ha d').mp hd'
          exact h3 h4 h5
      intro r
      rw [hr, hB]
      have hro : RoRime ct w t o k m r ↔ d = ch!"ร" ∧ RoRime ct w t o k m r := by
        rw [RoRime, ha, ← and_assoc, and_self]
      rw [ha, ha, ha, ha, ha, ← hro]
      unfold BareRime
      simp only [or_assoc]
    have key : ∀ d' : Nat, d = d' → d = d' := fun _ h => h
    split
    · rename_i h
      have h : d = ch!"ะ" := h
      refine karanEmit_bind fun k' hk' => emits_one fun r => ?_
      simp only [hr, h, open_iff hk']
      simp [rimeOf]
    split
    · rename_i h
      have h : d = ch!"า" := h
      refine karanEmit_bind fun k' hk' => ?_
      dsimp only at hk' ⊢
      split
      · rename_i h'
        refine SatP.bind (eatEndConsComplex_same hct h') fun es he => ?_
        refine (emits_one fun r => Iff.rfl).app he fun r => ?_
        simp only [hr, h, open_iff hk', hk'.ex]
        simp [rimeOf]
      · rename_i h'
        refine emits_one fun r => ?_
        have : ¬ ShutX ct w t k' [] VW.AA m r := fun h => h' (shutX_lt h)
        simp only [hr, h, open_iff hk', hk'.ex, this]
        simp [rimeOf]
    split
    · rename_i h
      have h : d = ch!"ำ" := h
      refine karanEmit_bind fun k' hk' => emits_one fun r => ?_
      simp only [hr, h, open_iff hk']
      simp [rimeOf]
    split
    · rename_i h
      have h : d = ch!"ว" := h
      split
      · rename_i h'
        refine SatP.mono (eatEndConsSimple_same hct h') fun es he => he.congr fun r => ?_
        simp only [hr, h]
        simp
      · rename_i h'
        refine emits_nil fun r => ?_
        have : ¬ Shut ct w t (k + 1) [] VW.UAA m r := fun h => h' (shut_lt h)
        simp only [hr, h, this]
        simp
    split
    · rename_i h
      have h : d = ch!"อ" := h
      refine karanEmit_bind fun k' hk' => ?_
      dsimp only at hk' ⊢
      split
      · rename_i h'
        refine SatP.bind (eatEndConsSimple_same hct h') fun es he => ?_
        refine (emits_one fun r => Iff.rfl).app he fun r => ?_
        simp only [hr, h, open_iff hk', hk'.ex]
        simp [rimeOf]
      · rename_i h'
        refine emits_one fun r => ?_
        have : ¬ Shut ct w t k' [] VW.AUU m r := fun h => h' (shut_lt h)
        simp only [hr, h, open_iff hk', hk'.ex, this]
        simp [rimeOf]
    split
    · rename_i h
      have h : d = ch!"ร" := h
      refine SatP.mono (roRua_emits hct (o := o) (k := k) rfl ho ((ha _).mpr h)) fun es he => he.same.congr fun r => ?_
      simp only [hr, h]
      simp
    · rename_i g1 g2 g3 g4 g5 g6
      have hd' : d ∉ u!"ะาำวอร" := by
        simp only [UTH.SARA_A, UTH.SARA_AA, UTH.SARA_AM, UTH.WO_WAEN, UTH.O_ANG, UTH.RO_RUA] at *
        simp [*]
      have hw : d ∉ u!"วอร" := fun h => hd' (by simp at h ⊢; omega)
      refine SatP.mono (consCons_emits (o := o) hct h2 hv ⟨hk, hd⟩ hw) fun es he => he.same.congr fun r => ?_
      rw [hr, and_iff_right hd']
      simp at hd'
      simp [hd']

theorem plainRime_char {o : Onset} {l : Bool} {j c : Nat} {r : Rime} (hc : At w t j c)
    (h : PlainRime ct w t o l j r) : ct.isTone c = true ∨ ct.isCons c = true ∨ c ∈ u!"ะาำวอร" := by
  obtain ⟨m, k, hm, h⟩ := h
  rcases hm with ⟨d, hd, h1, -⟩ | ⟨-, -, rfl⟩
  · obtain rfl := (at_iff hc.1 hc.2 d).mp hd
    exact .inl h1
  · have ha := at_iff hc.1 hc.2
    right
    rcases h with ⟨h, -⟩ | ⟨h, -⟩ | ⟨h, -⟩ | ⟨h, -⟩ | ⟨h, -⟩ | ⟨h, -⟩ | ⟨-, -, -, _, _, _, ⟨d, h, -⟩, -⟩ | ⟨_, d, -, h, h', -⟩
    iterate 6
      · obtain rfl := (ha _).mp h
        right; simp
    · obtain rfl := (ha _).mp h.1
      exact .inl h.2.1
    · obtain rfl := (ha _).mp h
      exact .inl h'

theorem thConsOne_emits (hct : ct.Ok) {p : PartialSyl} {o : Onset} {l : Bool} (hpos : o.stop = p.pos)
    (ho : o.sound = p.iConsSound) (h2 : o.second = p.iCons2) (hv : Inh o p.vowel) (hic : p.isComplete = false)
    (hp : p.pos < t) : (thConsOne ct w t l p).SatP (Emits p (ConsRime ct w t o l)) := by
  unfold thConsOne
  rw [if_neg (by omega), if_neg (by simp [hic])]
  refine SatP.bind strAt_satP fun c hc => ?_
  have ha := at_iff hp hc
  have hat : At w t p.pos c := ⟨hp, hc⟩
  have hr : ∀ r, ConsRime ct w t o l r ↔
      (c = ch!"ั" ∧ HanRime ct w t p.pos r) ∨
      (c ≠ ch!"ั" ∧ (ct.isUpVowel c = true ∨ ct.isBlVowel c = true) ∧ SignRime ct w t p.pos r) ∨
      (c = ch!"็" ∧ ShortORime ct w t p.pos r) ∨
      (c ≠ ch!"ั" ∧ ¬ (ct.isUpVowel c = true ∨ ct.isBlVowel c = true) ∧ c ≠ ch!"็" ∧ PlainRime ct w t o l p.pos r) := by
    intro r
    rw [ConsRime, hpos]
    refine or_congr ?_ (or_congr ?_ (or_congr ?_ ?_))
    · refine (and_iff_right_of_imp ?_).symm
      rintro ⟨h, -⟩
      exact (ha _).mp h
    · rw [← and_assoc]
      refine (and_iff_right_of_imp ?_).symm
      rintro ⟨c', v, _, _, h, h1, h3, -⟩
      obtain rfl := (ha _).mp h
      refine ⟨?_, h1⟩
      rintro rfl
      simp [signVowels] at h3
    · refine (and_iff_right_of_imp ?_).symm
      rintro ⟨h, -⟩
      exact (ha _).mp h
    · rw [← and_assoc, ← and_assoc]
      refine (and_iff_right_of_imp ?_).symm
      intro h
      have h := plainRime_char hat h
      have h1 := hct.tone c
      have h3 := hct.cons c
      have h4 := hct.up c
      have h5 := hct.bl c
      have h6 : (0x0e48 ≤ c ∧ c ≤ 0x0e4b) ∨ (0x0e01 ≤ c ∧ c ≤ 0x0e30) ∨ (0x0e32 ≤ c ∧ c ≤ 0x0e33) := by
        rcases h with h | h | h
        · have := h1 h; omega
        · have := h3 h; omega
        · simp at h; omega
      refine ⟨⟨by omega, ?_⟩, by omega⟩
      rintro (h | h)
      · have := h4 h; omega
      · have := h5 h; omega
  have hup : c = ch!"็" → ¬ (ct.isUpVowel c = true ∨ ct.isBlVowel c = true) := by
    rintro rfl (h | h)
    · have := hct.up _ h; omega
    · have := hct.bl _ h; omega
  split
  · rename_i h
    have h : c = ch!"ั" := h.symm
    refine SatP.mono (hanAkat_emits hct (j := p.pos) rfl rfl (h ▸ hat)) fun es he => he.same.congr fun r => ?_
    rw [hr]
    simp [h]
  split
  · rename_i h h'
    have h : c ≠ ch!"ั" := fun e => h e.symm
    have h' : ct.isUpVowel c = true ∨ ct.isBlVowel c = true := by simpa using h'
    refine SatP.mono (upBlVowel_emits hct rfl hat h') fun es he => he.same.congr fun r => ?_
    have h3 : c ≠ ch!"็" := fun e => hup e h'
    rw [hr]
    generalize (ct.isUpVowel c = true ∨ ct.isBlVowel c = true) = U at h' ⊢
    simp [h, h', h3]
  split
  · rename_i h h' h3
    have h : c ≠ ch!"ั" := fun e => h e.symm
    have h3 : c = ch!"็" := h3.symm
    have h' := hup h3
    refine SatP.mono (maitaikhuO_emits hct rfl (h3 ▸ hat)) fun es he => he.same.congr fun r => ?_
    simp only [hr, h, h']
    simp [h3]
  · rename_i h h' h3
    have h : c ≠ ch!"ั" := fun e => h e.symm
    have h' : ¬ (ct.isUpVowel c = true ∨ ct.isBlVowel c = true) := by simpa using h'
    have h3 : c ≠ ch!"็" := fun e => h3 e.symm
    refine SatP.mono (plainCons_emits (o := o) hct rfl ho h2 hv hat) fun es he => he.same.congr fun r => ?_
    rw [hr]
    generalize (ct.isUpVowel c = true ∨ ct.isBlVowel c = true) = U at h' ⊢
    simp [h, h', h3]

/-! ## Rimes after SARA E -/

theorem notPreA_iff {p : PartialSyl} {o : Onset} (hpre : o.pre = p.pre) (ho : o.sound = p.iConsSound) :
    notPreA p = true ↔ NotPreA o := by
  simp only [notPreA, NotPreA, hpre, ho, Bool.or_eq_true, Option.isNone_iff_eq_none, decide_eq_true_eq]
  exact or_congr Iff.rfl ⟨Ne.symm, Ne.symm⟩

theorem saraEI_emits (hct : ct.Ok) {p : PartialSyl} (ht : p.tone = .SAMAN) : (saraEI ct w t p).SatP (Emits p fun r =>
    ∃ m k k', MarkAt ct w t p.pos m k ∧ Skip ct w t k k' ∧ Shut ct w t k' [] VW.OEE m r) := by
  have hr : ∀ {m k k' r}, MarkAt ct w t p.pos m k → Skip ct w t k k' →
      ((∃ m k k', MarkAt ct w t p.pos m k ∧ Skip ct w t k k' ∧ Shut ct w t k' [] VW.OEE m r) ↔
        Shut ct w t k' [] VW.OEE m r) := by
    intro m k k' r hm hk
    constructor
    · rintro ⟨m2, k2, k2', h1, h2, h3⟩
      obtain ⟨rfl, rfl⟩ := hm.unique.mp h1
      obtain rfl := hk.unique.mp h2
      exact h3
    · intro h; exact ⟨m, k, k', hm, hk, h⟩
  unfold saraEI
  dsimp only
  split
  · rename_i h
    have h : ¬ p.pos < t := by omega
    have hs : Skip ct w t p.pos p.pos := .inr ⟨fun ⟨c, hc, _⟩ => h hc.1, rfl⟩
    refine emits_nil fun r => ?_
    rw [hr (markAt_end h) hs]
    exact fun h' => h (shut_lt h')
  · rename_i h
    have h : p.pos < t := by omega
    refine SatP.bind strAt_satP fun c hc => SatP.bind (readTone_satP hct h hc ht) ?_
    rintro q ⟨m, k, hm, -, -, rfl⟩
    refine SatP.bind karanSimple_satP fun k' hk' => ?_
    split
    · rename_i h
      exact SatP.mono (eatEndConsSimple_same hct h) fun es he => he.congr fun r => hr hm hk'
    · rename_i h
      refine emits_nil fun r => ?_
      rw [hr hm hk']
      exact fun h' => h (shut_lt h')

theorem saraEMid_emits (hct : ct.Ok) {p : PartialSyl} {sign mid : Nat} {vs vl : Vowel} {full : Bool} {j : Nat}
    (ht : p.tone = .SAMAN) (hj : p.pos = j + 1) (hs : At w t j sign) (hne : vs ≠ vl) :
    (saraEMid ct w t mid vs vl full p).SatP (Emits p (MidRime ct w t sign mid vs vl j full)) := by
  unfold saraEMid
  split
  · rename_i h
    have h : ¬ j + 1 < t := by omega
    refine emits_nil fun r => ?_
    simp only [MidRime, (markAt_end (ct := ct) (w := w) h).ex, not_at h]
    simp
  · rename_i h
    have h : p.pos < t := by omega
    refine SatP.bind strAt_satP fun c hc => SatP.bind (readTone_satP hct h hc ht) ?_
    rintro q ⟨m, k, hm, -, -, rfl⟩
    rw [hj] at hm
    refine SatP.bind isCharAt_satP fun b hb => ?_
    dsimp only at hb ⊢
    split
    · rename_i h1
      have hb := hb.mp h1
      refine SatP.bind isCharAt_satP fun b2 hb2 => ?_
      replace hb2 : b2 = true ↔ At w t (k + 1) ch!"ะ" := hb2
      cases b2 with
      | true =>
        have hb2 := hb2.mp rfl
        refine karanEmit_bind fun k' hk' => ?_
        simp only [if_true] at hk'
        simp only [if_true]
        rw [if_neg (by simp [hne.symm])]
        refine emits_one fun r => ?_
        rw [MidRime, and_iff_right hs, hm.ex, and_iff_right hb, open_iff hk']
        simp [hb2, rimeOf]
      | false =>
        have hb2 : ¬ At w t (k + 1) ch!"ะ" := fun h => by simpa using hb2.mpr h
        refine karanEmit_bind fun k' hk' => ?_
        simp only [Bool.false_eq_true, if_false] at hk'
        simp only [Bool.false_eq_true, if_false]
        split
        · rename_i h2
          cases full with
          | true =>
            refine SatP.bind (eatEndConsComplex_same hct h2.2) fun es he => ?_
            refine (emits_one fun r => Iff.rfl).app he fun r => ?_
            rw [MidRime, and_iff_right hs, hm.ex, and_iff_right hb, open_iff hk', hk'.ex]
            simp [hb2, rimeOf]
          | false =>
            refine SatP.bind (eatEndConsSimple_same hct h2.2) fun es he => ?_
            refine (emits_one fun r => Iff.rfl).app he fun r => ?_
            rw [MidRime, and_iff_right hs, hm.ex, and_iff_right hb, open_iff hk', hk'.ex]
            simp [hb2, rimeOf]
        · rename_i h2
          refine emits_one fun r => ?_
          have h3 : ¬ (if full then ShutX ct w t k' [] vl m r else Shut ct w t k' [] vl m r) := by
            intro h
            split at h
            · exact h2 ⟨trivial, shutX_lt h⟩
            · exact h2 ⟨trivial, shut_lt h⟩
          rw [MidRime, and_iff_right hs, hm.ex, and_iff_right hb, open_iff hk', hk'.ex]
          simp only [h3]
          simp [hb2, rimeOf]
    · rename_i h1
      have hb : ¬ At w t k mid := fun h => h1 (hb.mpr h)
      refine emits_nil fun r => ?_
      rw [MidRime, and_iff_right hs, hm.ex]
      simp [hb]

/-- What `saraEPlain` emits. -/
def EEnd (ct : CType) (w : U16Str) (t : Nat) (o : Onset) (k : Nat) (m : Tone) (r : Rime) : Prop :=
  NotPreA o ∧ (Open ct w t k VW.EE .NONE m r ∨ ∃ k', Skip ct w t k k' ∧ ShutX ct w t k' [] VW.EE m r)

theorem saraEPlain_emits (hct : ct.Ok) {p : PartialSyl} {o : Onset} (hpre : o.pre = p.pre) (ho : o.sound = p.iConsSound) :
    (saraEPlain ct w t p).SatP (Emits p (EEnd ct w t o p.pos p.tone)) := by
  unfold saraEPlain
  split
  · rename_i h
    have h := (notPreA_iff hpre ho).mp h
    refine karanEmit_bind fun k' hk' => ?_
    dsimp only at hk' ⊢
    split
    · rename_i h'
      refine SatP.bind (eatEndConsComplex_same hct h') fun es he => ?_
      refine (emits_one fun r => Iff.rfl).app he fun r => ?_
      rw [EEnd, and_iff_right h, open_iff hk', hk'.ex]
      simp [rimeOf]
    · rename_i h'
      refine emits_one fun r => ?_
      have : ¬ ShutX ct w t k' [] VW.EE p.tone r := fun h => h' (shutX_lt h)
      rw [EEnd, and_iff_right h, open_iff hk', hk'.ex]
      simp [rimeOf, this]
  · rename_i h
    exact emits_nil fun r h' => h ((notPreA_iff hpre ho).mpr h'.1)

/-- What `saraERest` emits. -/
def ERest (ct : CType) (w : U16Str) (t : Nat) (o : Onset) (c k : Nat) (m : Tone) (r : Rime) : Prop :=
  (c = ch!"อ" ∧ ((NotPreA o ∧ Open ct w t k VW.EE .NONE m r) ∨
     (At w t (k + 1) ch!"ะ" ∧ Open ct w t (k + 2) VW.OE .NONE m r) ∨
     (¬ At w t (k + 1) ch!"ะ" ∧ Open ct w t (k + 1) VW.OEE .NONE m r))) ∨
  (c = ch!"ะ" ∧ NotPreA o ∧ Open ct w t (k + 1) VW.E .NONE m r) ∨
  (c = ch!"า" ∧ ((At w t (k + 1) ch!"ะ" ∧ Open ct w t (k + 2) VW.AU .NONE m r) ∨
     (¬ At w t (k + 1) ch!"ะ" ∧ Open ct w t (k + 1) VW.A .KOEW m r))) ∨
  (c = ch!"ย" ∧ EndOrStart ct w t (k + 1) ∧ Open ct w t (k + 1) VW.OEE .KOEY m r) ∨
  (c ∉ u!"อะา" ∧ ¬ (c = ch!"ย" ∧ EndOrStart ct w t (k + 1)) ∧ EEnd ct w t o k m r)

theorem saraERest_emits (hct : ct.Ok) {p : PartialSyl} {o : Onset} {c : Nat} (hpre : o.pre = p.pre)
    (ho : o.sound = p.iConsSound) :
    (saraERest ct w t p c).SatP (Emits p (ERest ct w t o c p.pos p.tone)) := by
  unfold saraERest
  split
  · rename_i h
    have h : c = ch!"อ" := h
    have tail : ∀ a, Emits p (fun r => NotPreA o ∧ Open ct w t p.pos VW.EE .NONE p.tone r) a → (do
        let q := p.pos + 1
        let isShort ← isCharAt w t q UTH.SARA_A
        let p := if isShort then { p with pos := q + 1, vowel := VW.OE, eConsClass := .NONE }
          else { p with pos := q, vowel := VW.OEE, eConsClass := .NONE }
        let (_, b) ← karanEmit ct w t p
        pure (a ++ b)).SatP (Emits p (ERest ct w t o c p.pos p.tone)) := by
      intro a hae
      refine SatP.bind isCharAt_satP fun b2 hb2 => ?_
      replace hb2 : b2 = true ↔ At w t (p.pos + 1) ch!"ะ" := hb2
      refine karanEmit_bind fun k' hk' => ?_
      cases b2 with
      | true =>
        have hb2 := hb2.mp rfl
        simp only [if_true] at hk'
        simp only [if_true]
        refine hae.app (emits_one fun r => Iff.rfl) fun r => ?_
        simp [ERest, h, hb2, open_iff hk', rimeOf]
      | false =>
        have hb2 : ¬ At w t (p.pos + 1) ch!"ะ" := fun h => by simpa using hb2.mpr h
        simp only [Bool.false_eq_true, if_false] at hk'
        simp only [Bool.false_eq_true, if_false]
        refine hae.app (emits_one fun r => Iff.rfl) fun r => ?_
        simp [ERest, h, hb2, open_iff hk', rimeOf]
    split
    · rename_i h1
      have h1 := (notPreA_iff hpre ho).mp h1
      refine SatP.bind karanSimple_satP fun k' hk' => ?_
      refine tail _ (emits_one fun r => ?_)
      rw [and_iff_right h1, open_iff hk']
      simp [rimeOf]
    · rename_i h1
      exact tail _ (emits_nil fun r h' => h1 ((notPreA_iff hpre ho).mpr h'.1))
  split
  · rename_i h
    have h : c = ch!"ะ" := h
    split
    · rename_i h1
      have h1 := (notPreA_iff hpre ho).mp h1
      refine karanEmit_bind fun k' hk' => emits_one fun r => ?_
      simp [ERest, h, open_iff hk', rimeOf, h1]
    · rename_i h1
      have h1 : ¬ NotPreA o := fun h' => h1 ((notPreA_iff hpre ho).mpr h')
      exact emits_nil fun r => by simp [ERest, h, h1]
  split
  · rename_i h
    have h : c = ch!"า" := h
    refine SatP.bind isCharAt_satP fun b2 hb2 => ?_
    replace hb2 : b2 = true ↔ At w t (p.pos + 1) ch!"ะ" := hb2
    refine karanEmit_bind fun k' hk' => ?_
    cases b2 with
    | true =>
      have hb2 := hb2.mp rfl
      simp only [if_true] at hk'
      refine emits_one fun r => ?_
      simp [ERest, h, hb2, open_iff hk', rimeOf]
    | false =>
      have hb2 : ¬ At w t (p.pos + 1) ch!"ะ" := fun h => by simpa using hb2.mpr h
      simp only [Bool.false_eq_true, if_false] at hk'
      refine emits_one fun r => ?_
      simp [ERest, h, hb2, open_iff hk', rimeOf]
  split
  · rename_i h
    have h : c = ch!"ย" := h
    refine SatP.bind endOrSylStart_satP fun b hb => ?_
    split
    · rename_i h1
      have hb := hb.mp h1
      refine karanEmit_bind fun k' hk' => emits_one fun r => ?_
      simp [ERest, h, open_iff hk', rimeOf, hb]
    · rename_i h1
      have hb : ¬ EndOrStart ct w t (p.pos + 1) := fun h => h1 (hb.mpr h)
      refine SatP.mono (saraEPlain_emits hct hpre ho) fun es he => he.congr fun r => ?_
      simp [ERest, h, hb]
  · rename_i h1 h2 h3 h4
    refine SatP.mono (saraEPlain_emits hct hpre ho) fun es he => he.congr fun r => ?_
    simp only [UTH.SARA_A, UTH.SARA_AA, UTH.YO_YAK, UTH.O_ANG] at *
    simp [ERest, h1, h2, h3, h4]

theorem saraEOne_emits (hct : ct.Ok) {p : PartialSyl} {o : Onset} (hpos : o.stop = p.pos) (hpre : o.pre = p.pre)
    (ho : o.sound = p.iConsSound) (hic : p.isComplete = false) :
    (saraEOne ct w t p).SatP (Emits p (ERime ct w t o)) := by
  unfold saraEOne
  rw [if_neg (by simp [hic])]
  dsimp only
  split
  · rename_i hp
    have hp : ¬ p.pos < t := by omega
    have hr : ∀ r, ERime ct w t o r ↔ NotPreA o ∧ r = ⟨p.pos, false, VW.EE, .NONE, .SAMAN⟩ := by
      intro r
      have : t ≤ p.pos := by omega
      simp only [ERime, hpos, MidRime, not_at hp, hp, this]
      simp
    split
    · rename_i h1
      have h1 := (notPreA_iff (p := { p with tone := .SAMAN }) hpre ho).mp h1
      exact emits_one fun r => by rw [hr, and_iff_right h1]; rfl
    · rename_i h1
      exact emits_nil fun r h => h1 ((notPreA_iff (p := { p with tone := .SAMAN }) hpre ho).mpr ((hr r).mp h).1)
  · rename_i hp
    have hp : p.pos < t := by omega
    refine SatP.bind strAt_satP fun c hc => ?_
    have ha := at_iff hp hc
    have hat : At w t p.pos c := ⟨hp, hc⟩
    -- the last part, by the first character
    have hlast : ∀ m k r, MarkAt ct w t p.pos m k → ((∃ m k, MarkAt ct w t o.stop m k ∧
        ((t ≤ k ∧ r = ⟨k, false, VW.EE, .NONE, m⟩) ∨
         (At w t k ch!"อ" ∧ ((NotPreA o ∧ Open ct w t k VW.EE .NONE m r) ∨
           (At w t (k + 1) ch!"ะ" ∧ Open ct w t (k + 2) VW.OE .NONE m r) ∨
           (¬ At w t (k + 1) ch!"ะ" ∧ Open ct w t (k + 1) VW.OEE .NONE m r))) ∨
         (At w t k ch!"ะ" ∧ NotPreA o ∧ Open ct w t (k + 1) VW.E .NONE m r) ∨
         (At w t k ch!"า" ∧ ((At w t (k + 1) ch!"ะ" ∧ Open ct w t (k + 2) VW.AU .NONE m r) ∨
           (¬ At w t (k + 1) ch!"ะ" ∧ Open ct w t (k + 1) VW.A .KOEW m r))) ∨
         (At w t k ch!"ย" ∧ EndOrStart ct w t (k + 1) ∧ Open ct w t (k + 1) VW.OEE .KOEY m r) ∨
         (∃ c, At w t k c ∧ c ∉ u!"อะา" ∧ ¬ (c = ch!"ย" ∧ EndOrStart ct w t (k + 1)) ∧
           ¬ (k = o.stop ∧ c ∈ u!"ิีื็") ∧ NotPreA o ∧
           (Open ct w t k VW.EE .NONE m r ∨ ∃ k', Skip ct w t k k' ∧ ShutX ct w t k' [] VW.EE m r)))) ↔
        ((t ≤ k ∧ r = ⟨k, false, VW.EE, .NONE, m⟩) ∨
          ∃ d, At w t k d ∧ ¬ (k = p.pos ∧ d ∈ u!"ิีื็") ∧ ERest ct w t o d k m r)) := by
      intro m k r hm
      rw [hpos, hm.ex]
      refine or_congr Iff.rfl ?_
      by_cases hk : k < t
      · obtain ⟨d, hd⟩ | hd : (∃ d, w[k]? = some d) ∨ w[k]? = none := by
          cases w[k]? <;> simp
        · have ha := at_iff hk hd
          simp only [ha, exists_eq_left']
          constructor
          · rintro (⟨rfl, h⟩ | ⟨rfl, h⟩ | ⟨rfl, h⟩ | ⟨rfl, h⟩ | ⟨h1, h2, h3, h⟩)
            · exact ⟨by simp, .inl ⟨rfl, h⟩⟩
            · exact ⟨by simp, .inr (.inl ⟨rfl, h⟩)⟩
            · exact ⟨by simp, .inr (.inr (.inl ⟨rfl, h⟩))⟩
            · exact ⟨by simp, .inr (.inr (.inr (.inl ⟨rfl, h⟩)))⟩
            · exact ⟨h3, .inr (.inr (.inr (.inr ⟨h1, h2, h⟩)))⟩
          · rintro ⟨h3, (⟨h1, h⟩ | ⟨h1, h⟩ | ⟨h1, h⟩ | ⟨h1, h⟩ | ⟨h1, h2, h⟩)⟩
            · exact .inl ⟨h1, h⟩
            · exact .inr (.inl ⟨h1, h⟩)
            · exact .inr (.inr (.inl ⟨h1, h⟩))
            · exact .inr (.inr (.inr (.inl ⟨h1, h⟩)))
            · exact .inr (.inr (.inr (.inr ⟨h1, h2, h3, h⟩)))
        · simp [At, hd]
      · simp [not_at hk]
    have hr : ∀ m k r, MarkAt ct w t p.pos m k → (ERime ct w t o r ↔
        (c = ch!"ิ" ∧ ∃ m k k', MarkAt ct w t (p.pos + 1) m k ∧ Skip ct w t k k' ∧ Shut ct w t k' [] VW.OEE m r) ∨
        (c = ch!"ี" ∧ MidRime ct w t ch!"ี" ch!"ย" VW.IA VW.IAA p.pos true r) ∨
        (c = ch!"ื" ∧ MidRime ct w t ch!"ื" ch!"อ" VW.UEA VW.UEAA p.pos false r) ∨
        (c = ch!"็" ∧ Shut ct w t (p.pos + 1) [] VW.E .SAMAN r) ∨
        ((t ≤ k ∧ r = ⟨k, false, VW.EE, .NONE, m⟩) ∨
          ∃ d, At w t k d ∧ ¬ (k = p.pos ∧ d ∈ u!"ิีื็") ∧ ERest ct w t o d k m r)) := by
      intro m k r hm
      have h0 : ¬ t ≤ p.pos := by omega
      have hmid : ∀ {sign mid : Nat} {a b : Vowel} {f : Bool}, MidRime ct w t sign mid a b p.pos f r ↔
          c = sign ∧ MidRime ct w t sign mid a b p.pos f r := by
        intro sign mid a b f
        rw [MidRime, ha, ← and_assoc, and_self]
      unfold ERime
      dsimp only
      rw [hlast m k r hm, hpos, ← hmid, ← hmid, ha, ha, and_iff_right hp]
      simp only [h0, false_and, false_or]
    -- a character that is not a mark is the only one
    have hnm : ct.isTone c = false → MarkAt ct w t p.pos .SAMAN p.pos := by
      intro h
      refine .inr ⟨fun d hd => ?_, rfl, rfl⟩
      rw [← (ha d).mp hd]; exact h
    have hsign : c ∈ u!"ิีื็" → ∀ r, ERime ct w t o r ↔
        (c = ch!"ิ" ∧ ∃ m k k', MarkAt ct w t (p.pos + 1) m k ∧ Skip ct w t k k' ∧ Shut ct w t k' [] VW.OEE m r) ∨
        (c = ch!"ี" ∧ MidRime ct w t ch!"ี" ch!"ย" VW.IA VW.IAA p.pos true r) ∨
        (c = ch!"ื" ∧ MidRime ct w t ch!"ื" ch!"อ" VW.UEA VW.UEAA p.pos false r) ∨
        (c = ch!"็" ∧ Shut ct w t (p.pos + 1) [] VW.E .SAMAN r) := by
      intro h r
      have h1 : ct.isTone c = false := by
        cases h1 : ct.isTone c
        · rfl
        · have := hct.tone c h1
          simp at h
          omega
      rw [hr _ _ r (hnm h1)]
      have : ¬ ((t ≤ p.pos ∧ r = ⟨p.pos, false, VW.EE, .NONE, .SAMAN⟩) ∨
          ∃ d, At w t p.pos d ∧ ¬ (p.pos = p.pos ∧ d ∈ u!"ิีื็") ∧ ERest ct w t o d p.pos .SAMAN r) := by
        rintro (⟨h, -⟩ | ⟨d, h2, h3, -⟩)
        · omega
        · obtain rfl := (ha d).mp h2
          exact h3 ⟨rfl, h⟩
      exact or_congr Iff.rfl (or_congr Iff.rfl (or_congr Iff.rfl (or_iff_left this)))
    split
    · rename_i h
      have h : c = ch!"ิ" := h
      have h' := hsign (by simp [h])
      refine SatP.mono (saraEI_emits hct rfl) fun es he => he.same.congr fun r => ?_
      rw [h' r]
      simp [h]
    split
    · rename_i h
      have h : c = ch!"ี" := h
      have h' := hsign (by simp [h])
      refine SatP.mono (saraEMid_emits hct rfl rfl (h ▸ hat) (by decide)) fun es he => he.same.congr fun r => ?_
      rw [h' r]
      simp [h, UTH.YO_YAK]
    split
    · rename_i h
      have h : c = ch!"ื" := h
      have h' := hsign (by simp [h])
      refine SatP.mono (saraEMid_emits hct rfl rfl (h ▸ hat) (by decide)) fun es he => he.same.congr fun r => ?_
      rw [h' r]
      simp [h, UTH.O_ANG]
    split
    · rename_i h
      have h : c = ch!"็" := h
      have h' := hsign (by simp [h])
      split
      · rename_i h2
        refine SatP.mono (eatEndConsSimple_same hct h2) fun es he => he.congr fun r => ?_
        rw [h' r]
        simp [h]
      · rename_i h2
        refine emits_nil fun r => ?_
        have : ¬ Shut ct w t (p.pos + 1) [] VW.E .SAMAN r := fun h => h2 (shut_lt h)
        rw [h' r]
        simp [h, this]
    · rename_i g1 g2 g3 g4
      simp only [UTH.SARA_I, UTH.SARA_II, UTH.SARA_UEE, UTH.MAITAIKHU] at g1 g2 g3 g4
      refine SatP.bind (readTone_satP hct hp hc rfl) ?_
      rintro q ⟨m, k, hm, hmk, -, rfl⟩
      have hr := fun r => hr m k r hm
      dsimp only
      split
      · rename_i h
        refine emits_one fun r => ?_
        rw [hr r]
        simp [g1, g2, g3, g4, h.2, not_at (show ¬ k < t by omega), rimeOf]
      · rename_i h
        have hk : k < t := by
          rcases hmk with ⟨h1, -⟩ | ⟨-, h2⟩
          · exact h1 ▸ hp
          · refine Nat.lt_of_not_le fun h3 => h ⟨h2, h3⟩
        refine SatP.bind strAt_satP fun d hd => ?_
        refine SatP.mono (saraERest_emits hct (o := o) hpre ho) fun es he => he.same.congr fun r => ?_
        have h0 : ¬ t ≤ k := by omega
        have h3 : ¬ (k = p.pos ∧ d ∈ u!"ิีื็") := by
          rintro ⟨rfl, h⟩
          obtain rfl := (ha d).mp ⟨hk, hd⟩
          simp [g1, g2, g3, g4] at h
        rw [hr r]
        simp only [g1, g2, g3, g4, h0, at_iff hk hd, exists_eq_left', h3]
        simp

/-! ## Rimes after the other leading vowels -/

theorem saraAe_emits (hct : ct.Ok) {p : PartialSyl} :
    (saraAe ct w t p).SatP (Emits p (AeRime ct w t p.pos p.tone)) := by
  have long : ¬ At w t p.pos ch!"ะ" → ¬ At w t p.pos ch!"็" → (do
      let (p, a) ← karanEmit ct w t { p with vowel := VW.AEE, eConsClass := .NONE }
      if p.pos < t ∧ (VW.AEE = p.vowel ∨ false = true) then do
        let es ← eatEndConsSimple ct w t p []
        pure (a ++ es)
      else pure a).SatP (Emits p (AeRime ct w t p.pos p.tone)) := by
    intro h1 h2
    refine karanEmit_bind fun k hk => ?_
    dsimp only at hk ⊢
    split
    · rename_i h
      refine SatP.bind (eatEndConsSimple_same hct h.1) fun es he => ?_
      refine (emits_one fun r => Iff.rfl).app he fun r => ?_
      simp [AeRime, h1, h2, open_iff hk, hk.ex, rimeOf]
    · rename_i h
      refine emits_one fun r => ?_
      have : ¬ Shut ct w t k [] VW.AEE p.tone r := fun h' => h ⟨shut_lt h', .inl rfl⟩
      simp [AeRime, h1, h2, open_iff hk, hk.ex, rimeOf, this]
  unfold saraAe
  split
  · rename_i hp
    refine SatP.bind strAt_satP fun c hc => ?_
    have ha := at_iff hp hc
    split
    · rename_i h
      have h : c = ch!"ะ" := h
      refine karanEmit_bind fun k hk => ?_
      dsimp only at hk ⊢
      rw [if_neg (fun h => absurd h.2 (show ¬ (VW.AEE = VW.AE ∨ false = true) by decide))]
      refine emits_one fun r => ?_
      simp only [AeRime, ha, open_iff hk]
      simp [h, rimeOf]
    split
    · rename_i h
      have h : c = ch!"็" := h
      simp only [pure_eq, ok_bind, if_true]
      split
      · rename_i h1
        refine SatP.bind (eatEndConsSimple_same hct h1.1) fun es he => ?_
        refine he.congr fun r => ?_
        simp only [AeRime, ha]
        simp [h]
      · rename_i h1
        refine emits_nil fun r => ?_
        have : ¬ Shut ct w t (p.pos + 1) [] VW.AE p.tone r := fun h' => h1 ⟨shut_lt h', .inr trivial⟩
        simp only [AeRime, ha]
        simp [h, this]
    · rename_i h1 h2
      exact long (by rw [ha]; exact h1) (by rw [ha]; exact h2)
  · rename_i h
    exact long (not_at h) (not_at h)

theorem saraO_emits (hct : ct.Ok) {p : PartialSyl} :
    (saraO ct w t p).SatP (Emits p (ORime ct w t p.pos p.tone)) := by
  unfold saraO
  refine SatP.bind isCharAt_satP fun b hb => ?_
  replace hb : b = true ↔ At w t p.pos ch!"ะ" := hb
  cases b with
  | true =>
    have hb := hb.mp rfl
    simp only [if_true]
    refine SatP.bind karanSimple_satP fun k hk => ?_
    have hne : ∀ {n : Nat}, ¬ (VW.OO = VW.O ∧ n < t) := fun h => absurd h.1 (by decide)
    by_cases h : k = p.pos + 1
    · subst h
      have hsi : ¬ Silent ct w t (p.pos + 1) := by
        unfold Skip at hk; intro h; simp [h] at hk
      rw [if_pos rfl]
      refine SatP.bind karanIU_satP fun k2 hk2 => ?_
      simp only [hne, if_false, true_and, pure_eq]
      have : Emits p (ORime ct w t p.pos p.tone)
          [⟨k2, false, { p with pos := p.pos + 1, vowel := VW.O, eConsClass := .NONE }⟩] := by
        refine emits_one fun r => ?_
        simp [ORime, hb, hsi, hk2.unique, rimeOf]
      split
      · exact this
      · rename_i h
        have h : k2 = p.pos + 1 := Decidable.not_not.mp h
        subst h
        exact this
    · rw [if_neg h]
      simp only [h, false_and, if_false, pure_eq, ok_bind, hne]
      have hk : Silent ct w t (p.pos + 1) ∧ k = p.pos + 3 := hk.resolve_right fun h' => h h'.2
      refine emits_one fun r => ?_
      simp [ORime, hb, hk, rimeOf]
  | false =>
    have hb : ¬ At w t p.pos ch!"ะ" := fun h => by simpa using hb.mpr h
    simp only [Bool.false_eq_true, if_false]
    refine SatP.bind karanSimple_satP fun k hk => ?_
    have tail : ∀ k (R : Rime → Prop), (∀ r, R r ↔ r = ⟨k, false, VW.OO, .NONE, p.tone⟩ ∨
        ShutX ct w t k [] VW.OO p.tone r) →
        (if True ∧ k < t then do
          let es ← eatEndConsComplex ct w t { p with pos := k, vowel := VW.OO, eConsClass := .NONE } []
          pure ([(⟨k, false, { p with pos := k, vowel := VW.OO, eConsClass := .NONE }⟩ : Emit)] ++ es)
        else pure [(⟨k, false, { p with pos := k, vowel := VW.OO, eConsClass := .NONE }⟩ : Emit)]).SatP (Emits p R) := by
      intro k R hR
      split
      · rename_i h
        refine SatP.bind (eatEndConsComplex_same hct h.2) fun es he => ?_
        refine (emits_one fun r => Iff.rfl).app he fun r => ?_
        rw [hR]; rfl
      · rename_i h
        refine emits_one fun r => ?_
        rw [hR]
        refine or_iff_left fun h' => h ⟨trivial, shutX_lt h'⟩
    by_cases h : k = p.pos
    · subst h
      have hsi : ¬ Silent ct w t p.pos := by
        unfold Skip at hk; intro h; simp [h] at hk
      rw [if_pos rfl]
      refine SatP.bind karanIU_satP fun k2 hk2 => ?_
      by_cases h : k2 = p.pos
      · subst h
        have hsj : ¬ Silent2 ct w t IU p.pos := by
          unfold SkipIU at hk2; intro h; simp [h] at hk2
        rw [if_neg (by simp)]
        refine tail p.pos _ fun r => ?_
        simp [ORime, hb, hsi, hsj]
      · rw [if_pos ⟨rfl, h⟩]
        have hk2 : Silent2 ct w t IU p.pos ∧ k2 = p.pos + 3 := hk2.resolve_right fun h' => h h'.2
        refine emits_one fun r => ?_
        simp [ORime, hb, hsi, hk2, rimeOf]
    · rw [if_neg h]
      simp only [h, false_and, if_false, pure_eq, ok_bind]
      have hk : Silent ct w t p.pos ∧ k = p.pos + 2 := hk.resolve_right fun h' => h h'.2
      refine tail k _ fun r => ?_
      simp [ORime, hb, hk]

theorem saraAiMalai_emits {p : PartialSyl} :
    (saraAiMalai ct w t p).SatP (Emits p (AiRime ct w t true p.pos p.tone)) := by
  have tail : ∀ a, Emits p (fun r => At w t p.pos ch!"ย" ∧ EndOrStart ct w t (p.pos + 1) ∧
      r = ⟨p.pos + 1, false, VW.A, .KOEY, p.tone⟩) a → (do
      let (_, b) ← karanEmit ct w t { p with vowel := VW.A, eConsClass := .KOEY }
      pure (a ++ b)).SatP (Emits p (AiRime ct w t true p.pos p.tone)) := by
    intro a ha
    refine karanEmit_bind fun k hk => ?_
    refine ha.app (emits_one fun r => Iff.rfl) fun r => ?_
    rw [AiRime, open_iff hk, or_comm]
    simp [rimeOf]
  unfold saraAiMalai
  dsimp only
  refine SatP.bind isCharAt_satP fun b hb => ?_
  replace hb : b = true ↔ At w t p.pos ch!"ย" := hb
  split
  · rename_i h
    have hb := hb.mp h
    have tail2 : ∀ b : Bool, (b = true ↔ EndOrStart ct w t (p.pos + 1)) → (do
        if b = true then do
          let a ← (pure [⟨p.pos + 1, false, { p with vowel := VW.A, eConsClass := .KOEY }⟩] : Res (List Emit))
          let (_, b) ← karanEmit ct w t { p with vowel := VW.A, eConsClass := .KOEY }
          pure (a ++ b)
        else do
          let a ← (pure [] : Res (List Emit))
          let (_, b) ← karanEmit ct w t { p with vowel := VW.A, eConsClass := .KOEY }
          pure (a ++ b)).SatP (Emits p (AiRime ct w t true p.pos p.tone)) := by
      intro b h
      split
      · refine tail _ (emits_one fun r => ?_)
        have h := h.mp ‹_›
        simp [hb, h, rimeOf]
      · refine tail _ (emits_nil fun r h' => ?_)
        exact absurd (h.mpr h'.2.1) ‹_›
    split
    · rename_i h1
      refine tail2 true ?_
      simp [EndOrStart, h1]
    · rename_i h1
      refine SatP.bind strAt_satP fun c hc => ?_
      have h3 : p.pos + 1 < t := by have := hb.1; omega
      refine tail2 _ ?_
      rw [EndOrStart, startAt_iff h3 hc, isSylStart_iff]
      refine (or_iff_right ?_).symm
      omega
  · rename_i h
    exact tail _ (emits_nil fun r h' => h (hb.mpr h'.1))

theorem otherLVOne_emits (hct : ct.Ok) {p : PartialSyl} {o : Onset} {v : Nat} (hpos : o.stop = p.pos)
    (hic : p.isComplete = false) : (otherLVOne ct w t v p).SatP (Emits p (LeadRime ct w t v o.stop)) := by
  have main : ∀ m k, MarkAt ct w t p.pos m k → (do
      let p := { p with tone := m, pos := k }
      if v = UTH.SARA_AE then saraAe ct w t p
      else if v = UTH.SARA_O then saraO ct w t p
      else if v = UTH.SARA_AI_MAIMALAI then saraAiMalai ct w t p
      else if v = UTH.SARA_AI_MAIMUAN then do
        let (_, a) ← karanEmit ct w t { p with vowel := VW.A, eConsClass := .KOEY }
        pure a
      else pure []).SatP (Emits p (LeadRime ct w t v o.stop)) := by
    intro m k hm
    have hr : ∀ r, LeadRime ct w t v o.stop r ↔
        ((v = ch!"แ" ∧ AeRime ct w t k m r) ∨ (v = ch!"โ" ∧ ORime ct w t k m r) ∨
         (v = ch!"ไ" ∧ AiRime ct w t true k m r) ∨ (v = ch!"ใ" ∧ AiRime ct w t false k m r)) := by
      intro r
      rw [LeadRime, hpos, hm.ex]
    split
    · rename_i h
      have h : v = ch!"แ" := h
      refine SatP.mono (saraAe_emits hct) fun es he => he.same.congr fun r => ?_
      rw [hr]
      simp [h]
    split
    · rename_i h
      have h : v = ch!"โ" := h
      refine SatP.mono (saraO_emits hct) fun es he => he.same.congr fun r => ?_
      rw [hr]
      simp [h]
    split
    · rename_i h
      have h : v = ch!"ไ" := h
      refine SatP.mono saraAiMalai_emits fun es he => he.same.congr fun r => ?_
      rw [hr]
      simp [h]
    split
    · rename_i h
      have h : v = ch!"ใ" := h
      refine karanEmit_bind fun k' hk' => emits_one fun r => ?_
      rw [hr]
      simp [h, AiRime, open_iff hk', rimeOf]
    · rename_i h1 h2 h3 h4
      refine emits_nil fun r => ?_
      rw [hr]
      simp only [UTH.SARA_AE, UTH.SARA_O, UTH.SARA_AI_MAIMALAI, UTH.SARA_AI_MAIMUAN] at *
      simp [h1, h2, h3, h4]
  unfold otherLVOne
  rw [if_neg (by simp [hic])]
  dsimp only
  split
  · rename_i hp
    refine SatP.bind strAt_satP fun c hc => SatP.bind (readTone_satP hct hp hc rfl) ?_
    rintro q ⟨m, k, hm, -, -, rfl⟩
    exact main m k hm
  · rename_i hp
    exact main _ _ (markAt_end hp)

/-! ## Onsets -/

/-- The partial syllable of an onset. -/
def ofOnset (o : Onset) : PartialSyl :=
  { pos := o.stop, pre := o.pre, iConsSound := o.sound, iConsClass := o.cls, iCons2 := o.second,
    vowel := o.inherent.getD VW.INVALID }

/-- The partial syllable of a whole syllable. -/
def ofWhole (o : Onset) (r : Rime) : PartialSyl :=
  { pos := o.stop, pre := o.pre, iConsSound := o.sound, iConsClass := o.cls, iCons2 := o.second,
    vowel := r.vowel, eConsClass := r.final, tone := r.mark, isComplete := true }

theorem notRoAt_satP {i : Nat} : (notRoAt w t i).SatP fun b => b = true ↔ ¬ At w t i ch!"ร" := by
  unfold notRoAt
  split
  · rename_i h
    simp [not_at (show ¬ i < t by omega)]
  · rename_i h
    refine SatP.bind strAt_satP fun c hc => ?_
    rw [pure_eq, satP_ok, at_iff (show i < t by omega) hc, decide_eq_true_eq]
    exact ⟨Ne.symm, Ne.symm⟩

theorem notRoRo_satP {i d : Nat} : (notRoRo w t i d).SatP fun b => b = true ↔ ¬ (d = ch!"ร" ∧ At w t i ch!"ร") := by
  unfold notRoRo
  split
  · rename_i h
    simp [not_at (show ¬ i < t by omega)]
  · rename_i h
    split
    · rename_i h1
      have h1 : ¬ d = ch!"ร" := fun h => h1 h.symm
      simp [h1]
    · rename_i h1
      have h1 : d = ch!"ร" := (Decidable.not_not.mp h1).symm
      refine SatP.bind strAt_satP fun c hc => ?_
      rw [pure_eq, satP_ok, at_iff (show i < t by omega) hc, decide_eq_true_eq, and_iff_right h1]
      exact ⟨Ne.symm, Ne.symm⟩

theorem clusterRo_satP {i : Nat} {l : Bool} {c : Nat} {snd : InitConsSound} {cls : InitConsClass} :
    (clusterRo w i t l c snd cls).SatP fun ps => ∀ q, q ∈ ps ↔ ¬ At w t (i + 2) ch!"ร" ∧
      ((c ∈ u!"จซศส" ∧ l = false ∧ q = ofOnset ⟨i + 2, none, snd, cls, SC.NONE, none⟩) ∨
       (c ∈ u!"กขคดตทบปพฟ" ∧ (l = true → c ∈ u!"กตป") ∧ q = ofOnset ⟨i + 2, none, snd, cls, SC.RA, none⟩)) := by
  unfold clusterRo
  split
  · rename_i h
    have h : c ∈ u!"จซศส" := h
    have h' : c ∉ u!"กขคดตทบปพฟ" := by simp at h ⊢; omega
    cases l with
    | true => intro q; simp [h']
    | false =>
      refine SatP.bind notRoAt_satP fun b hb => ?_
      split
      · rename_i hb'
        have hb := hb.mp hb'
        intro q
        simp [h', h, hb, ofOnset]
      · rename_i hb'
        have hb : At w t (i + 2) ch!"ร" := Classical.not_not.mp fun h => hb' (hb.mpr h)
        intro q; simp [hb]
  · rename_i h
    have h : c ∉ u!"จซศส" := h
    split
    · rename_i h1
      have h1 : c ∈ u!"ขคดทบพฟ" ∧ l = true := h1
      have h2 : c ∉ u!"กตป" := by have := h1.1; simp at this ⊢; omega
      intro q; simp [h, h1.2, h2]
    split
    · rename_i h1 h2
      have h1 : ¬ (c ∈ u!"ขคดทบพฟ" ∧ l = true) := h1
      have h2 : c ∈ u!"ขคดทบพฟกตป" := h2
      have h3 : l = true → c ∈ u!"กตป" := by
        intro hl
        have : c ∉ u!"ขคดทบพฟ" := fun h => h1 ⟨h, hl⟩
        simp at this h2 ⊢; omega
      have h4 : c ∈ u!"กขคดตทบปพฟ" := by simp at h2 ⊢; omega
      refine SatP.bind notRoAt_satP fun b hb => ?_
      split
      · rename_i hb'
        have hb := hb.mp hb'
        intro q
        simp only [h, h4, and_iff_right h3, hb]
        simp [ofOnset]
      · rename_i hb'
        have hb : At w t (i + 2) ch!"ร" := Classical.not_not.mp fun h => hb' (hb.mpr h)
        intro q; simp [hb]
    · rename_i h1 h2
      have h2 : c ∉ u!"ขคดทบพฟกตป" := h2
      have h4 : c ∉ u!"กขคดตทบปพฟ" := by simp at h2 ⊢; omega
      intro q
      simp only [h, h4]
      simp

theorem spokenTone_eq {cls : InitConsClass} {v : Vowel} {f : EndConsClass} {m : Tone} {a b : Bool}
    (ha : a = decide (Dead v f)) (hb : b = decide (v ∈ shortVowels)) :
    toneFromWritten cls m a b = spokenTone cls v f m := by
  subst ha hb
  unfold spokenTone
  cases h : prescribed cls m (decide (Dead v f)) (decide (v ∈ shortVowels)) with
  | none => rw [C01_unlisted _ _ _ _ h]; rfl
  | some x => rw [C01_tone_table _ _ _ _ _ h]; rfl

theorem isShortVowel_eq {v : Vowel} (h : v ∈ vowels) : isShortVowel v = decide (v ∈ shortVowels) := by
  revert v
  decide +kernel

theorem preSylOf_A {snd : InitConsSound} {cls : InitConsClass} :
    preSylOf snd cls VW.A true true = openSyl snd cls VW.A := by
  rw [preSylOf, openSyl, spokenTone_eq (v := VW.A) (f := .NONE) (by decide) (by decide)]
  rfl

theorem preSylOf_AUU {snd : InitConsSound} {cls : InitConsClass} :
    preSylOf snd cls VW.AUU false false = openSyl snd cls VW.AUU := by
  rw [preSylOf, openSyl, spokenTone_eq (v := VW.AUU) (f := .NONE) (by decide) (by decide)]
  rfl

theorem auraRo_satP (hct : ct.Ok) {i : Nat} {c : Nat} {snd : InitConsSound} {cls : InitConsClass} :
    (auraRo ct w i t c snd cls).SatP fun ps => ∀ q, q ∈ ps ↔ ¬ At w t (i + 2) ch!"ร" ∧
      let ra k v : PartialSyl := ofWhole ⟨k, some (openSyl snd cls VW.AUU), .RA, .LOWS, SC.NONE, some v⟩
        ⟨k, false, v, .NONE, .SAMAN⟩
      ((StartAt ct w t (i + 2) ∧ c ∈ u!"กคจทธนบปภมวสหอ" ∧ q = ra (i + 2) VW.A) ∨
       (At w t (i + 2) ch!"ิ" ∧ c = ch!"บ" ∧ q = ra (i + 3) VW.I) ∨
       (At w t (i + 2) ch!"ะ" ∧ c = ch!"จ" ∧ q = ra (i + 3) VW.A)) := by
  unfold auraRo
  split
  · rename_i hi
    refine SatP.bind strAt_satP fun n hn => ?_
    have ha := at_iff hi hn
    have hs := startAt_iff (ct := ct) hi hn
    rw [preSylOf_AUU]
    split
    · rename_i h
      have h : ¬ n = ch!"ร" := fun h' => h h'.symm
      dsimp only
      split
      · rename_i h1
        have h2 : n ≠ ch!"ิ" ∧ n ≠ ch!"ะ" := by
          rcases isSylStart_iff.mp h1 with h1 | h1
          · have := hct.cons n h1; omega
          · have := hct.ld n h1; omega
        split
        · rename_i h3
          have h3 : c ∈ u!"กคจทธนบปภมวสหอ" := h3
          intro q
          simp only [hs, ha, h, h1, h2, h3]
          simp [ofWhole]
        · rename_i h3
          have h3 : c ∉ u!"กคจทธนบปภมวสหอ" := h3
          intro q
          simp only [hs, ha, h, h1, h2, h3]
          simp
      · rename_i h1
        split
        · rename_i h2
          have h2 : n = ch!"ิ" ∧ c = ch!"บ" := ⟨h2.1.symm, h2.2.symm⟩
          intro q
          rw [hs]
          simp only [ha, h1]
          simp [ofWhole, h2]
        split
        · rename_i h2
          have h2 : n = ch!"ะ" ∧ c = ch!"จ" := ⟨h2.1.symm, h2.2.symm⟩
          intro q
          rw [hs]
          simp only [ha, h1]
          simp [ofWhole, h2]
        · rename_i h2 h3
          intro q
          simp only [hs, ha, h, h1]
          simp only [List.not_mem_nil, false_iff]
          rintro ⟨-, ⟨⟨⟩, -⟩ | ⟨h, h', -⟩ | ⟨h, h', -⟩⟩
          · exact h2 ⟨h.symm, h'.symm⟩
          · exact h3 ⟨h.symm, h'.symm⟩
    · rename_i h
      have h : n = ch!"ร" := (Decidable.not_not.mp h).symm
      intro q; simp only [ha, h]; simp
  · rename_i hi
    have : ¬ StartAt ct w t (i + 2) := fun ⟨_, h, _⟩ => hi h.1
    intro q; simp [not_at hi, this]

theorem clusters_satP (hct : ct.Ok) {i : Nat} {l : Bool} {c d : Nat} {snd : InitConsSound} {cls : InitConsClass} :
    (clusters ct w i t l c d snd cls).SatP fun ps => ∀ q, q ∈ ps ↔
      (¬ (d = ch!"ร" ∧ At w t (i + 2) ch!"ร") ∧ ∃ o, ((∃ cs s, (cs, d, s) ∈ trueClusters ∧ c ∈ cs ∧
          (l = true → d = ch!"ร" ∧ c ∈ u!"กตป") ∧ o = ⟨i + 2, none, snd, cls, s, none⟩) ∨
        (c ∈ u!"จซศส" ∧ d = ch!"ร" ∧ l = false ∧ o = ⟨i + 2, none, snd, cls, SC.NONE, none⟩)) ∧ q = ofOnset o) ∨
      (d = ch!"ร" ∧ ¬ At w t (i + 2) ch!"ร" ∧
        let ra k v : PartialSyl := ofWhole ⟨k, some (openSyl snd cls VW.AUU), .RA, .LOWS, SC.NONE, some v⟩
          ⟨k, false, v, .NONE, .SAMAN⟩
        ((StartAt ct w t (i + 2) ∧ c ∈ u!"กคจทธนบปภมวสหอ" ∧ q = ra (i + 2) VW.A) ∨
         (At w t (i + 2) ch!"ิ" ∧ c = ch!"บ" ∧ q = ra (i + 3) VW.I) ∨
         (At w t (i + 2) ch!"ะ" ∧ c = ch!"จ" ∧ q = ra (i + 3) VW.A))) := by
  unfold clusters
  split
  · rename_i h
    have h : d = ch!"ร" := h
    refine SatP.bind clusterRo_satP fun a ha => SatP.bind (auraRo_satP hct) fun b hb => ?_
    intro q
    rw [List.mem_append, ha, hb]
    refine or_congr ?_ (and_iff_right h).symm
    rw [h]
    simp only [true_and]
    refine and_congr Iff.rfl ?_
    constructor
    · rintro (⟨h1, h2, rfl⟩ | ⟨h1, h2, rfl⟩)
      · exact ⟨_, .inr ⟨h1, h2, rfl⟩, rfl⟩
      · exact ⟨_, .inl ⟨_, _, List.mem_cons_self, h1, h2, rfl⟩, rfl⟩
    · rintro ⟨o, ⟨cs, s, h1, h2, h3, rfl⟩ | ⟨h1, h2, rfl⟩, rfl⟩
      · right
        simp only [trueClusters, List.mem_cons, Prod.mk.injEq, List.not_mem_nil, or_false] at h1
        rcases h1 with ⟨rfl, -, rfl⟩ | ⟨-, h1, -⟩ | ⟨-, h1, -⟩
        · exact ⟨h2, h3, rfl⟩
        · simp at h1
        · simp at h1
      · exact .inl ⟨h1, h2, rfl⟩
  split
  · rename_i h0 h
    have h : d = ch!"ล" := h
    subst h
    have key : ∀ q, ((¬ (ch!"ล" = ch!"ร" ∧ At w t (i + 2) ch!"ร") ∧ ∃ o, ((∃ cs s, (cs, ch!"ล", s) ∈ trueClusters ∧ c ∈ cs ∧
          (l = true → ch!"ล" = ch!"ร" ∧ c ∈ u!"กตป") ∧ o = ⟨i + 2, none, snd, cls, s, none⟩) ∨
        (c ∈ u!"จซศส" ∧ ch!"ล" = ch!"ร" ∧ l = false ∧ o = ⟨i + 2, none, snd, cls, SC.NONE, none⟩)) ∧ q = ofOnset o)) ↔
        c ∈ u!"กขคบปผพฟ" ∧ l = false ∧ q = ofOnset ⟨i + 2, none, snd, cls, SC.LA, none⟩ := by
      intro q
      constructor
      · rintro ⟨-, o, ⟨cs, s, h1, h2, h3, rfl⟩ | ⟨-, h1, -⟩, rfl⟩
        · simp only [trueClusters, List.mem_cons, Prod.mk.injEq, List.not_mem_nil, or_false] at h1
          rcases h1 with ⟨-, h1, -⟩ | ⟨rfl, -, rfl⟩ | ⟨-, h1, -⟩
          · simp at h1
          · refine ⟨h2, ?_, rfl⟩
            cases l
            · rfl
            · simp at h3
          · simp at h1
        · simp at h1
      · rintro ⟨h1, rfl, rfl⟩
        exact ⟨by simp, _, .inl ⟨_, _, List.mem_cons_of_mem _ List.mem_cons_self, h1, by simp, rfl⟩, rfl⟩
    split
    · rename_i h1
      have h1 : c ∈ u!"กขคบปผพฟ" ∧ l = false := h1
      intro q
      rw [key, and_iff_right h1.1, and_iff_right h1.2]
      simp [ofOnset]
    · rename_i h1
      have h1 : ¬ (c ∈ u!"กขคบปผพฟ" ∧ l = false) := h1
      intro q
      rw [key, ← and_assoc]
      simp only [h1]
      simp
  split
  · rename_i h0 h0' h
    have h : d = ch!"ว" := h
    subst h
    have key : ∀ q, ((¬ (ch!"ว" = ch!"ร" ∧ At w t (i + 2) ch!"ร") ∧ ∃ o, ((∃ cs s, (cs, ch!"ว", s) ∈ trueClusters ∧ c ∈ cs ∧
          (l = true → ch!"ว" = ch!"ร" ∧ c ∈ u!"กตป") ∧ o = ⟨i + 2, none, snd, cls, s, none⟩) ∨
        (c ∈ u!"จซศส" ∧ ch!"ว" = ch!"ร" ∧ l = false ∧ o = ⟨i + 2, none, snd, cls, SC.NONE, none⟩)) ∧ q = ofOnset o)) ↔
        c ∈ u!"กขค" ∧ l = false ∧ q = ofOnset ⟨i + 2, none, snd, cls, SC.WA, none⟩ := by
      intro q
      constructor
      · rintro ⟨-, o, ⟨cs, s, h1, h2, h3, rfl⟩ | ⟨-, h1, -⟩, rfl⟩
        · simp only [trueClusters, List.mem_cons, Prod.mk.injEq, List.not_mem_nil, or_false] at h1
          rcases h1 with ⟨-, h1, -⟩ | ⟨-, h1, -⟩ | ⟨rfl, -, rfl⟩
          · simp at h1
          · simp at h1
          · refine ⟨h2, ?_, rfl⟩
            cases l
            · rfl
            · simp at h3
        · simp at h1
      · rintro ⟨h1, rfl, rfl⟩
        exact ⟨by simp, _, .inl ⟨_, _, List.mem_cons_of_mem _ (List.mem_cons_of_mem _ List.mem_cons_self), h1, by simp,
          rfl⟩, rfl⟩
    split
    · rename_i h1
      have h1 : c ∈ u!"กขค" ∧ l = false := h1
      intro q
      rw [key, and_iff_right h1.1, and_iff_right h1.2]
      simp [ofOnset]
    · rename_i h1
      have h1 : ¬ (c ∈ u!"กขค" ∧ l = false) := h1
      intro q
      rw [key, ← and_assoc]
      simp only [h1]
      simp
  · rename_i h1 h2 h3
    simp only [UTH.RO_RUA, UTH.LO_LING, UTH.WO_WAEN] at h1 h2 h3
    intro q
    simp only [List.not_mem_nil, false_iff]
    rintro (⟨-, o, ⟨cs, s, h4, -⟩ | ⟨-, h4, -⟩, -⟩ | ⟨h4, -⟩)
    · simp only [trueClusters, List.mem_cons, Prod.mk.injEq, List.not_mem_nil, or_false, h1, h2, h3] at h4
      simp at h4
    · exact h1 h4
    · exact h1 h4

/-- Two consonants: the whole syllables. -/
def Whole2 (ct : CType) (w : U16Str) (t i c : Nat) (snd : InitConsSound) (cls : InitConsClass) (d : Nat) (q : PartialSyl) :
    Prop :=
  (c = ch!"บ" ∧ d = ch!"ด" ∧ (At w t (i + 2) ch!"ิ" ∨ At w t (i + 2) ch!"ี") ∧
    q = ofWhole ⟨i + 1, none, snd, cls, SC.NONE, some VW.AUU⟩ ⟨i + 1, false, VW.AUU, .NONE, .SAMAN⟩) ∨
  (d = ch!"ร" ∧ ¬ At w t (i + 2) ch!"ร" ∧
    let ra k v : PartialSyl := ofWhole ⟨k, some (openSyl snd cls VW.AUU), .RA, .LOWS, SC.NONE, some v⟩
      ⟨k, false, v, .NONE, .SAMAN⟩
    ((StartAt ct w t (i + 2) ∧ c ∈ u!"กคจทธนบปภมวสหอ" ∧ q = ra (i + 2) VW.A) ∨
     (At w t (i + 2) ch!"ิ" ∧ c = ch!"บ" ∧ q = ra (i + 3) VW.I) ∨
     (At w t (i + 2) ch!"ะ" ∧ c = ch!"จ" ∧ q = ra (i + 3) VW.A)))

theorem twoCons_satP (hct : ct.Ok) {i : Nat} {l : Bool} {c d : Nat} {snd : InitConsSound} {cls : InitConsClass}
    (hd : ct.isCons d = true) :
    (twoCons ct w i t l c d snd cls).SatP fun ps => ∀ q, q ∈ ps ↔
      (∃ o, (∃ snd2 cls2, Letter ct d snd2 cls2 ∧ ¬ (d = ch!"ร" ∧ At w t (i + 2) ch!"ร") ∧
        TwoLetters i l c snd cls d snd2 cls2 o) ∧ q = ofOnset o) ∨ Whole2 ct w t i c snd cls d q := by
  unfold twoCons
  obtain ⟨snd2, h1, h2⟩ := C02_sound d (cons_isConsonant hct hd)
  obtain ⟨cls2, h3, h4⟩ := C02_class d (cons_isConsonant hct hd)
  have hu : ∀ a b, Letter ct d a b ↔ a = snd2 ∧ b = cls2 := by
    intro a b
    constructor
    · rintro ⟨-, h5, h6⟩
      have h5 := C02_sound_conv a d h5
      have h6 := C02_class_conv b d h6
      rw [h1] at h5; rw [h3] at h6
      cases h5; cases h6; exact ⟨rfl, rfl⟩
    · rintro ⟨rfl, rfl⟩; exact ⟨hd, h2.2, h4.2⟩
  have hex : ∀ q, (∃ o, (∃ a b, Letter ct d a b ∧ ¬ (d = ch!"ร" ∧ At w t (i + 2) ch!"ร") ∧
        TwoLetters i l c snd cls d a b o) ∧ q = ofOnset o) ↔
      ¬ (d = ch!"ร" ∧ At w t (i + 2) ch!"ร") ∧ ∃ o, TwoLetters i l c snd cls d snd2 cls2 o ∧ q = ofOnset o := by
    intro q
    constructor
    · rintro ⟨o, ⟨a, b, h, h5, h6⟩, rfl⟩
      obtain ⟨rfl, rfl⟩ := (hu a b).mp h
      exact ⟨h5, o, h6, rfl⟩
    · rintro ⟨h5, o, h6, rfl⟩
      exact ⟨o, ⟨snd2, cls2, (hu _ _).mpr ⟨rfl, rfl⟩, h5, h6⟩, rfl⟩
  rw [h1, h3]
  simp only [ok_bind]
  refine SatP.bind (clusters_satP hct) fun a ha => ?_
  rw [preSylOf_A]
  -- the parts one after the other
  have p4 : ∀ b e : List PartialSyl,
      (∀ q, q ∈ b ↔ (c = ch!"ห" ∧ cls2 = .LOWS) ∧ ¬ (d = ch!"ร" ∧ At w t (i + 2) ch!"ร") ∧
        q = ofOnset ⟨i + 2, none, snd2, .HIGH, SC.NONE, none⟩) →
      (∀ q, q ∈ e ↔ ¬ (d = ch!"ร" ∧ At w t (i + 2) ch!"ร") ∧ q = ofOnset ⟨i + 2, some (openSyl snd cls VW.A), snd2,
        if cls2 = .LOWS then cls else cls2, SC.NONE, none⟩) →
      (do
        let d ←
          if UTH.BO_BAIMAI = c ∧ UTH.DO_DEK = d ∧ i + 2 < t then do
            let next ← strAt w (i + 2)
            if UTH.SARA_I = next ∨ UTH.SARA_II = next then
              pure [{ pos := i + 1, pre := none, iConsSound := snd, iConsClass := cls,
                      iCons2 := SC.NONE, vowel := VW.AUU, eConsClass := .NONE, tone := .SAMAN,
                      isComplete := true }]
            else pure []
          else pure []
        pure (a ++ b ++ e ++ d) : Res (List PartialSyl)).SatP fun ps => ∀ q, q ∈ ps ↔
      (∃ o, (∃ snd2 cls2, Letter ct d snd2 cls2 ∧ ¬ (d = ch!"ร" ∧ At w t (i + 2) ch!"ร") ∧
        TwoLetters i l c snd cls d snd2 cls2 o) ∧ q = ofOnset o) ∨ Whole2 ct w t i c snd cls d q := by
    intro b e hb he
    have fin : ∀ f : List PartialSyl, (∀ q, q ∈ f ↔ (c = ch!"บ" ∧ d = ch!"ด" ∧ (At w t (i + 2) ch!"ิ" ∨ At w t (i + 2) ch!"ี") ∧
        q = ofWhole ⟨i + 1, none, snd, cls, SC.NONE, some VW.AUU⟩ ⟨i + 1, false, VW.AUU, .NONE, .SAMAN⟩)) →
        ∀ q, q ∈ a ++ b ++ e ++ f ↔
      (∃ o, (∃ snd2 cls2, Letter ct d snd2 cls2 ∧ ¬ (d = ch!"ร" ∧ At w t (i + 2) ch!"ร") ∧
        TwoLetters i l c snd cls d snd2 cls2 o) ∧ q = ofOnset o) ∨ Whole2 ct w t i c snd cls d q := by
      intro f hf q
      rw [hex]
      simp only [List.mem_append, ha, hb, he, hf]
      unfold Whole2 TwoLetters
      generalize (d = ch!"ร" ∧ At w t (i + 2) ch!"ร") = N
      constructor
      · rintro (((h | h) | h) | h)
        · rcases h with ⟨hn, o, h | h, rfl⟩ | h
          · exact .inl ⟨hn, o, .inl h, rfl⟩
          · exact .inl ⟨hn, o, .inr (.inl h), rfl⟩
          · exact .inr (.inr h)
        · exact .inl ⟨h.2.1, _, .inr (.inr (.inl ⟨h.1.1, h.1.2, rfl⟩)), h.2.2⟩
        · exact .inl ⟨h.1, _, .inr (.inr (.inr rfl)), h.2⟩
        · exact .inr (.inl h)
      · rintro (⟨hn, o, h | h | ⟨h, h', rfl⟩ | rfl, rfl⟩ | h | h)
        · exact .inl (.inl (.inl (.inl ⟨hn, o, .inl h, rfl⟩)))
        · exact .inl (.inl (.inl (.inl ⟨hn, o, .inr h, rfl⟩)))
        · exact .inl (.inl (.inr ⟨⟨h, h'⟩, hn, rfl⟩))
        · exact .inl (.inr ⟨hn, rfl⟩)
        · exact .inr h
        · exact .inl (.inl (.inl (.inr h)))
    split
    · rename_i h
      have h : c = ch!"บ" ∧ d = ch!"ด" ∧ i + 2 < t := ⟨h.1.symm, h.2.1.symm, h.2.2⟩
      refine SatP.bind strAt_satP fun n hn => ?_
      have hat := at_iff h.2.2 hn
      split
      · rename_i h5
        have h5 : n = ch!"ิ" ∨ n = ch!"ี" := h5.imp Eq.symm Eq.symm
        refine fin _ fun q => ?_
        simp only [hat, h5, h]
        simp [ofWhole]
      · rename_i h5
        refine fin _ fun q => ?_
        simp only [hat, List.not_mem_nil, false_iff]
        exact fun h => h5 (h.2.2.1.imp Eq.symm Eq.symm)
    · rename_i h
      refine fin _ fun q => ?_
      simp only [List.not_mem_nil, false_iff]
      rintro ⟨h5, h6, h7, -⟩
      exact h ⟨h5.symm, h6.symm, h7.elim (·.1) (·.1)⟩
  have hcls : (if InitConsClass.LOWS = cls2 then cls else cls2) = if cls2 = .LOWS then cls else cls2 := by
    simp only [eq_comm]
  rw [hcls]
  -- the unwritten vowel
  have e1 : ¬ (d = ch!"ร" ∧ At w t (i + 2) ch!"ร") → ∀ q : PartialSyl,
      q ∈ [ofOnset ⟨i + 2, some (openSyl snd cls VW.A), snd2, if cls2 = .LOWS then cls else cls2, SC.NONE, none⟩] ↔
      ¬ (d = ch!"ร" ∧ At w t (i + 2) ch!"ร") ∧ q = ofOnset ⟨i + 2, some (openSyl snd cls VW.A), snd2,
        if cls2 = .LOWS then cls else cls2, SC.NONE, none⟩ := by
    intro h q; simp only [h]; simp
  have e2 : (d = ch!"ร" ∧ At w t (i + 2) ch!"ร") → ∀ q : PartialSyl,
      q ∈ ([] : List PartialSyl) ↔
      ¬ (d = ch!"ร" ∧ At w t (i + 2) ch!"ร") ∧ q = ofOnset ⟨i + 2, some (openSyl snd cls VW.A), snd2,
        if cls2 = .LOWS then cls else cls2, SC.NONE, none⟩ := by
    intro h q; simp only [h]; simp
  split
  · rename_i h
    have h : c = ch!"ห" ∧ cls2 = .LOWS := ⟨h.1.symm, h.2.symm⟩
    refine SatP.bind notRoRo_satP fun n hn => ?_
    split
    · have hn := hn.mp ‹_›
      have b1 : ∀ q : PartialSyl, q ∈ [ofOnset ⟨i + 2, none, snd2, .HIGH, SC.NONE, none⟩] ↔
          (c = ch!"ห" ∧ cls2 = .LOWS) ∧ ¬ (d = ch!"ร" ∧ At w t (i + 2) ch!"ร") ∧
          q = ofOnset ⟨i + 2, none, snd2, .HIGH, SC.NONE, none⟩ := by
        intro q; rw [and_iff_right h, and_iff_right hn]; simp
      rw [pure_eq, ok_bind]
      refine SatP.bind notRoRo_satP fun n2 hn2 => ?_
      split
      · exact p4 _ _ b1 (e1 hn)
      · exact absurd (hn2.mpr hn) ‹_›
    · have hn : (d = ch!"ร" ∧ At w t (i + 2) ch!"ร") := Classical.not_not.mp fun h => absurd (hn.mpr h) ‹_›
      have b1 : ∀ q : PartialSyl, q ∈ ([] : List PartialSyl) ↔
          (c = ch!"ห" ∧ cls2 = .LOWS) ∧ ¬ (d = ch!"ร" ∧ At w t (i + 2) ch!"ร") ∧
          q = ofOnset ⟨i + 2, none, snd2, .HIGH, SC.NONE, none⟩ := by
        intro q; simp only [hn]; simp
      rw [pure_eq, ok_bind]
      refine SatP.bind notRoRo_satP fun n2 hn2 => ?_
      split
      · exact absurd hn (hn2.mp ‹_›)
      · exact p4 _ _ b1 (e2 hn)
  · rename_i h
    have h : ¬ (c = ch!"ห" ∧ cls2 = .LOWS) := fun h' => h ⟨h'.1.symm, h'.2.symm⟩
    have b1 : ∀ q : PartialSyl, q ∈ ([] : List PartialSyl) ↔
        (c = ch!"ห" ∧ cls2 = .LOWS) ∧ ¬ (d = ch!"ร" ∧ At w t (i + 2) ch!"ร") ∧
        q = ofOnset ⟨i + 2, none, snd2, .HIGH, SC.NONE, none⟩ := by
      intro q; simp only [h]; simp
    rw [pure_eq, ok_bind]
    refine SatP.bind notRoRo_satP fun n2 hn2 => ?_
    split
    · exact p4 _ _ b1 (e1 (hn2.mp ‹_›))
    · exact p4 _ _ b1 (e2 (Classical.not_not.mp fun h => absurd (hn2.mpr h) ‹_›))

theorem withRu_mem {i c : Nat} {snd : InitConsSound} {cls : InitConsClass} {q : PartialSyl} :
    (∃ o, WithRu ct w t i c snd cls o ∧ q = ofOnset o) ↔
      (let joined s v : PartialSyl := ofOnset ⟨i + 2, none, snd, cls, s, some v⟩
       let apart cls' v : PartialSyl := ofOnset ⟨i + 2, some (openSyl snd cls VW.A), .RA, cls', SC.NONE, some v⟩
       (c ∈ u!"กตทป" ∧ q = joined SC.RA VW.I) ∨
       (c ∈ u!"ศส" ∧ (q = joined SC.NONE VW.I ∨ q = apart cls VW.I)) ∨
       (c = ch!"ว" ∧ q = joined SC.RA VW.UE) ∨
       (c = ch!"น" ∧ q = apart .LOWS VW.UE) ∨
       (c ∈ u!"คพ" ∧ (∃ d f, FinalAt ct w t (i + 2) [] d f) ∧ q = joined SC.RA VW.UE) ∨
       (c ∉ u!"กตทปศสวนคพ" ∧ ((c ≠ ch!"ห" ∧ (q = joined SC.RA VW.I ∨ q = joined SC.RA VW.UE)) ∨
         q = apart .LOWS VW.I ∨ q = apart .LOWS VW.UE))) := by
  constructor
  · rintro ⟨o, ⟨h, rfl⟩ | ⟨h, rfl | rfl⟩ | ⟨h, rfl⟩ | ⟨h, rfl⟩ | ⟨h, h', rfl⟩ | ⟨h, v, rfl | rfl, ⟨h', rfl⟩ | rfl⟩, rfl⟩
    · exact .inl ⟨h, rfl⟩
    · exact .inr (.inl ⟨h, .inl rfl⟩)
    · exact .inr (.inl ⟨h, .inr rfl⟩)
    · exact .inr (.inr (.inl ⟨h, rfl⟩))
    · exact .inr (.inr (.inr (.inl ⟨h, rfl⟩)))
    · exact .inr (.inr (.inr (.inr (.inl ⟨h, h', rfl⟩))))
    · exact .inr (.inr (.inr (.inr (.inr ⟨h, .inl ⟨h', .inl rfl⟩⟩))))
    · exact .inr (.inr (.inr (.inr (.inr ⟨h, .inr (.inl rfl)⟩))))
    · exact .inr (.inr (.inr (.inr (.inr ⟨h, .inl ⟨h', .inr rfl⟩⟩))))
    · exact .inr (.inr (.inr (.inr (.inr ⟨h, .inr (.inr rfl)⟩))))
  · rintro (⟨h, rfl⟩ | ⟨h, rfl | rfl⟩ | ⟨h, rfl⟩ | ⟨h, rfl⟩ | ⟨h, h', rfl⟩ | ⟨h, ⟨h', rfl | rfl⟩ | rfl | rfl⟩)
    · exact ⟨_, .inl ⟨h, rfl⟩, rfl⟩
    · exact ⟨_, .inr (.inl ⟨h, .inl rfl⟩), rfl⟩
    · exact ⟨_, .inr (.inl ⟨h, .inr rfl⟩), rfl⟩
    · exact ⟨_, .inr (.inr (.inl ⟨h, rfl⟩)), rfl⟩
    · exact ⟨_, .inr (.inr (.inr (.inl ⟨h, rfl⟩))), rfl⟩
    · exact ⟨_, .inr (.inr (.inr (.inr (.inl ⟨h, h', rfl⟩)))), rfl⟩
    · exact ⟨_, .inr (.inr (.inr (.inr (.inr ⟨h, _, .inl rfl, .inl ⟨h', rfl⟩⟩)))), rfl⟩
    · exact ⟨_, .inr (.inr (.inr (.inr (.inr ⟨h, _, .inr rfl, .inl ⟨h', rfl⟩⟩)))), rfl⟩
    · exact ⟨_, .inr (.inr (.inr (.inr (.inr ⟨h, _, .inl rfl, .inr rfl⟩)))), rfl⟩
    · exact ⟨_, .inr (.inr (.inr (.inr (.inr ⟨h, _, .inr rfl, .inr rfl⟩)))), rfl⟩

/-- Consonant and "ฤ": the whole syllables. -/
def WholeRu (ct : CType) (w : U16Str) (t i c : Nat) (snd : InitConsSound) (cls : InitConsClass) (q : PartialSyl) : Prop :=
  (c ∈ u!"คพ" ∧ (¬ ∃ d f, FinalAt ct w t (i + 2) [] d f) ∨ c ∉ u!"กตทปศสวนคพ") ∧
  q = ofWhole ⟨i + 2, some (openSyl snd cls VW.A), .RA, .LOWS, SC.NONE, some VW.UE⟩ ⟨i + 2, false, VW.UE, .NONE, .SAMAN⟩

theorem consRu_satP (hct : ct.Ok) {i c : Nat} {snd : InitConsSound} {cls : InitConsClass} (hru : At w t (i + 1) ch!"ฤ") :
    (consRu ct w i t c snd cls).SatP fun ps => ∀ q, q ∈ ps ↔ RuAt w t i ∧
      ((∃ o, WithRu ct w t i c snd cls o ∧ q = ofOnset o) ∨ WholeRu ct w t i c snd cls q) := by
  -- whether a final follows
  have hend : ∀ {β : Type} {P : β → Prop} {f : Bool → Res β},
      (∀ b, (b = true ↔ ∃ d f, FinalAt ct w t (i + 2) [] d f) → (f b).SatP P) →
      ((if i + 2 < t then do
        let c ← strAt w (i + 2)
        if ct.isCons c then do
          let x ← endConsClass c
          let y ← pure (decide (EndConsClass.NONE ≠ x))
          f y
        else do
          let y ← pure false
          f y
      else do
        let y ← pure false
        f y) : Res β).SatP P := by
    intro β P f hf
    split
    · rename_i hi
      refine SatP.bind strAt_satP fun d hd => ?_
      have ha := at_iff hi hd
      split
      · rename_i hc
        obtain ⟨g, h1, h2⟩ := C02_final d (cons_isConsonant hct hc)
        rw [h1, ok_bind]
        refine hf _ ?_
        rw [decide_eq_true_eq]
        constructor
        · intro h
          exact ⟨d, g, ⟨hi, hd⟩, hc, h2, h.symm, by simp⟩
        · rintro ⟨d', g', h3, -, h4, h5, -⟩
          obtain rfl := (ha d').mp h3
          have := C02_final_conv g' d h4
          rw [h1] at this; cases this
          exact h5.symm
      · rename_i hc
        refine hf _ ?_
        simp only [Bool.false_eq_true, false_iff]
        rintro ⟨d', g', h3, h4, -⟩
        obtain rfl := (ha d').mp h3
        exact hc h4
    · rename_i hi
      refine hf _ ?_
      simp only [Bool.false_eq_true, false_iff]
      rintro ⟨d', g', h3, -⟩
      exact hi h3.1
  have main : RuAt w t i → (
    let clus (c2 : SecInitCons) (v : Vowel) : PartialSyl :=
      { pos := i + 2, pre := none, iConsSound := snd, iConsClass := cls, iCons2 := c2, vowel := v }
    let sep (cls2 : InitConsClass) (v : Vowel) : PartialSyl :=
      { pos := i + 2, pre := some (openSyl snd cls VW.A), iConsSound := .RA,
        iConsClass := cls2, iCons2 := SC.NONE, vowel := v }
    let sepDone : PartialSyl :=
      { sep .LOWS VW.UE with eConsClass := .NONE, tone := .SAMAN, isComplete := true }
    if c ∈ [UTH.KO_KAI, UTH.TO_TAO, UTH.THO_THAHAN, UTH.PO_PLA] then pure [clus SC.RA VW.I]
    else if c ∈ [UTH.SO_SUA, UTH.SO_SALA] then pure [clus SC.NONE VW.I, sep cls VW.I]
    else if c ∈ [UTH.WO_WAEN] then pure [clus SC.RA VW.UE]
    else if c ∈ [UTH.NO_NU] then pure [sep .LOWS VW.UE]
    else if c ∈ [UTH.KHO_KHWAI, UTH.PHO_PHAN] then do
      let hasEnd ←
        if i + 2 < t then do
          let c ← strAt w (i + 2)
          if ct.isCons c then pure (decide (EndConsClass.NONE ≠ (← endConsClass c))) else pure false
        else pure false
      if hasEnd then pure [clus SC.RA VW.UE] else pure [sepDone]
    else
      pure ((if UTH.HO_HIP ≠ c then [clus SC.RA VW.I] else [])
        ++ [sep .LOWS VW.I]
        ++ (if UTH.HO_HIP ≠ c then [clus SC.RA VW.UE] else [])
        ++ [sep .LOWS VW.UE, sepDone]) : Res (List PartialSyl)).SatP fun ps => ∀ q, q ∈ ps ↔ RuAt w t i ∧
      ((∃ o, WithRu ct w t i c snd cls o ∧ q = ofOnset o) ∨ WholeRu ct w t i c snd cls q) := by
    intro hr
    simp only [hr, true_and, withRu_mem, WholeRu]
    split
    · rename_i h
      have h : c ∈ u!"กตทป" := h
      simp only [List.mem_cons, List.not_mem_nil, or_false] at h
      intro q
      rcases h with rfl | rfl | rfl | rfl <;> simp [ofOnset]
    split
    · rename_i h
      have h : c ∈ u!"สศ" := h
      simp only [List.mem_cons, List.not_mem_nil, or_false] at h
      intro q
      rcases h with rfl | rfl <;> simp [ofOnset]
    split
    · rename_i h
      have h : c ∈ u!"ว" := h
      simp only [List.mem_cons, List.not_mem_nil, or_false] at h
      intro q
      rcases h with rfl; simp [ofOnset]
    split
    · rename_i h
      have h : c ∈ u!"น" := h
      simp only [List.mem_cons, List.not_mem_nil, or_false] at h
      intro q
      rcases h with rfl; simp [ofOnset]
    split
    · rename_i h
      have h : c ∈ u!"คพ" := h
      refine hend fun b hb => ?_
      split
      · have hb := hb.mp ‹_›
        intro q
        simp only [List.mem_cons, List.not_mem_nil, or_false] at h
        rcases h with rfl | rfl <;> simp [ofOnset, hb]
      · have hb : ¬ ∃ d f, FinalAt ct w t (i + 2) [] d f := fun h => absurd (hb.mpr h) ‹_›
        intro q
        simp only [List.mem_cons, List.not_mem_nil, or_false] at h
        rcases h with rfl | rfl <;> simp [ofWhole, hb]
    · rename_i h1 h2 h3 h4 h5
      have h : c ∉ u!"กตทปศสวนคพ" := by
        simp only [UTH.KO_KAI, UTH.TO_TAO, UTH.THO_THAHAN, UTH.PO_PLA, UTH.SO_SUA, UTH.SO_SALA, UTH.WO_WAEN, UTH.NO_NU,
          UTH.KHO_KHWAI, UTH.PHO_PHAN, List.mem_cons, List.not_mem_nil, or_false] at *
        omega
      have g1 : c ∉ u!"กตทป" := fun h' => h (by simp at h' ⊢; omega)
      have g2 : c ∉ u!"ศส" := fun h' => h (by simp at h' ⊢; omega)
      have g3 : c ≠ ch!"ว" := fun h' => h (by simp [h'])
      have g4 : c ≠ ch!"น" := fun h' => h (by simp [h'])
      have g5 : c ∉ u!"คพ" := fun h' => h (by simp at h' ⊢; omega)
      intro q
      simp only [h, g1, g2, g3, g4, g5]
      by_cases h6 : c = ch!"ห"
      · subst h6
        simp [ofOnset, ofWhole, UTH.HO_HIP, or_assoc]
      · have h7 : UTH.HO_HIP ≠ c := fun h => h6 h.symm
        simp only [h7, h6, ofOnset, ofWhole]
        simp
        grind
  unfold consRu
  rw [preSylOf_A]
  by_cases h : i + 2 ≥ t
  · rw [if_pos h]
    exact main ⟨hru, not_at (by omega), not_at (by omega)⟩
  · rw [if_neg h]
    refine SatP.bind strAt_satP fun n hn => ?_
    have ha := at_iff (show i + 2 < t by omega) hn
    rw [pure_eq, ok_bind]
    beta_reduce
    by_cases h1 : decide (UTH.LAKKHANGYAO = n ∨ UTH.SARA_AA = n) = true
    · rw [if_pos h1]
      have h1 : n = ch!"ๅ" ∨ n = ch!"า" := (of_decide_eq_true h1).imp Eq.symm Eq.symm
      intro q
      simp only [RuAt, ha]
      rcases h1 with h1 | h1 <;> simp [h1]
    · rw [if_neg h1]
      have h1 : ¬ (n = ch!"ๅ" ∨ n = ch!"า") := fun h => h1 (decide_eq_true (h.imp Eq.symm Eq.symm))
      refine main ⟨hru, ?_, ?_⟩
      · rw [ha]; exact fun h => h1 (.inl h)
      · rw [ha]; exact fun h => h1 (.inr h)

theorem res_bind_assoc {α β γ : Type} (x : Res α) (f : α → Res β) (g : β → Res γ) :
    (x >>= f) >>= g = x >>= fun a => f a >>= g := by
  cases x <;> rfl

theorem res_ite_bind {α β : Type} {p : Prop} [Decidable p] (x y : Res α) (f : α → Res β) :
    (if p then x else y) >>= f = if p then x >>= f else y >>= f := by
  split <;> rfl

theorem satP_bind2 {α β γ : Type} {A : Res α} {C : Res β} {P : α → Prop} {Q : β → Prop} {R : γ → Prop} {f : α → β → γ}
    (hA : A.SatP P) (hC : C.SatP Q) (h : ∀ a b, P a → Q b → R (f a b)) :
    (A >>= fun a => C >>= fun b => pure (f a b)).SatP R :=
  SatP.bind hA fun a ha => SatP.bind hC fun b hb => h a b ha hb

theorem letter_ok (hct : ct.Ok) {c : Nat} (hc : ct.isCons c = true) : ∃ snd cls, initConsSound c = .ok snd ∧
    initConsClass c = .ok cls ∧ ∀ a b, Letter ct c a b ↔ a = snd ∧ b = cls := by
  obtain ⟨snd2, h1, h2⟩ := C02_sound c (cons_isConsonant hct hc)
  obtain ⟨cls2, h3, h4⟩ := C02_class c (cons_isConsonant hct hc)
  refine ⟨snd2, cls2, h1, h3, fun a b => ?_⟩
  constructor
  · rintro ⟨-, h5, h6⟩
    have h5 := C02_sound_conv a c h5
    have h6 := C02_class_conv b c h6
    rw [h1] at h5; rw [h3] at h6
    cases h5; cases h6; exact ⟨rfl, rfl⟩
  · rintro ⟨rfl, rfl⟩; exact ⟨hc, h2.2, h4.2⟩

theorem matchInitCons_satP (hct : ct.Ok) {i : Nat} {l : Bool} :
    (matchInitCons ct w i t l).SatP fun ps => ∀ q, q ∈ ps ↔
      (∃ o, OnsetAt ct w t i l o ∧ q = ofOnset o) ∨ (∃ o r, WholeAt ct w t i o r ∧ q = ofWhole o r) := by
  unfold matchInitCons
  refine SatP.bind strAt_satP fun c hc => ?_
  by_cases hcc : ct.isCons c = false
  · rw [if_pos hcc]
    intro q
    simp only [List.not_mem_nil, false_iff]
    rintro (⟨o, ⟨c', _, _, h1, h2, -⟩, -⟩ | ⟨o, r, ⟨c', _, _, h1, h2, -⟩, -⟩) <;>
    · rw [hc] at h1; cases h1
      rw [h2.1] at hcc; cases hcc
  rw [if_neg hcc]
  have hcc : ct.isCons c = true := by simpa using hcc
  obtain ⟨snd, cls, h1, h2, hu⟩ := letter_ok hct hcc
  rw [h1, h2]
  simp only [ok_bind]
  have ho : ∀ q, (∃ o, OnsetAt ct w t i l o ∧ q = ofOnset o) ↔ q = ofOnset ⟨i + 1, none, snd, cls, SC.NONE, none⟩ ∨
      (∃ d, At w t (i + 1) d ∧ ∃ o, (∃ snd2 cls2, Letter ct d snd2 cls2 ∧ ¬ (d = ch!"ร" ∧ At w t (i + 2) ch!"ร") ∧
        TwoLetters i l c snd cls d snd2 cls2 o) ∧ q = ofOnset o) ∨
      (RuAt w t i ∧ ∃ o, WithRu ct w t i c snd cls o ∧ q = ofOnset o) := by
    intro q
    constructor
    · rintro ⟨o, ⟨c', a, b, h3, h4, h5⟩, rfl⟩
      rw [hc] at h3; cases h3
      obtain ⟨rfl, rfl⟩ := (hu a b).mp h4
      rcases h5 with rfl | ⟨d, s2, c2, h6, h7, h8⟩ | ⟨h6, h7⟩
      · exact .inl rfl
      · exact .inr (.inl ⟨d, h6, o, ⟨s2, c2, h7, h8⟩, rfl⟩)
      · exact .inr (.inr ⟨h6, o, h7, rfl⟩)
    · rintro (rfl | ⟨d, h6, o, ⟨s2, c2, h7, h8⟩, rfl⟩ | ⟨h6, o, h7, rfl⟩)
      · exact ⟨_, ⟨c, snd, cls, hc, (hu _ _).mpr ⟨rfl, rfl⟩, .inl rfl⟩, rfl⟩
      · exact ⟨_, ⟨c, snd, cls, hc, (hu _ _).mpr ⟨rfl, rfl⟩, .inr (.inl ⟨d, s2, c2, h6, h7, h8⟩)⟩, rfl⟩
      · exact ⟨_, ⟨c, snd, cls, hc, (hu _ _).mpr ⟨rfl, rfl⟩, .inr (.inr ⟨h6, h7⟩)⟩, rfl⟩
  have hw : ∀ q, (∃ o r, WholeAt ct w t i o r ∧ q = ofWhole o r) ↔
      (StartAt ct w t (i + 1) ∧ q = ofWhole ⟨i + 1, none, snd, cls, SC.NONE, some VW.A⟩ ⟨i + 1, false, VW.A, .NONE, .SAMAN⟩) ∨
      (∃ d, At w t (i + 1) d ∧ ct.isCons d = true ∧ Whole2 ct w t i c snd cls d q) ∨
      (RuAt w t i ∧ WholeRu ct w t i c snd cls q) := by
    intro q
    constructor
    · rintro ⟨o, r, ⟨c', a, b, h3, h4, h5⟩, rfl⟩
      rw [hc] at h3; cases h3
      obtain ⟨rfl, rfl⟩ := (hu a b).mp h4
      rcases h5 with ⟨h6, rfl, rfl⟩ | ⟨rfl, h6, h7, h8, rfl, rfl⟩ | ⟨h6, h7, h8, h9⟩ | ⟨h6, h7, rfl, rfl⟩
      · exact .inl ⟨h6, rfl⟩
      · exact .inr (.inl ⟨_, h6, h7, .inl ⟨rfl, rfl, h8, rfl⟩⟩)
      · refine .inr (.inl ⟨_, h6, h7, .inr ⟨rfl, h8, ?_⟩⟩)
        rcases h9 with ⟨g1, g2, rfl, rfl⟩ | ⟨g1, g2, rfl, rfl⟩ | ⟨g1, g2, rfl, rfl⟩
        · exact .inl ⟨g1, g2, rfl⟩
        · exact .inr (.inl ⟨g1, g2, rfl⟩)
        · exact .inr (.inr ⟨g1, g2, rfl⟩)
      · exact .inr (.inr ⟨h6, h7, rfl⟩)
    · have mk : ∀ o r, _ → ∃ o' r', WholeAt ct w t i o' r' ∧ ofWhole o r = ofWhole o' r' :=
        fun o r h => ⟨o, r, ⟨c, snd, cls, hc, (hu _ _).mpr ⟨rfl, rfl⟩, h⟩, rfl⟩
      rintro (⟨h6, rfl⟩ | ⟨d, h6, h7, ⟨rfl, rfl, h8, rfl⟩ | ⟨rfl, h8, h9⟩⟩ | ⟨h6, h7, rfl⟩)
      · exact mk _ _ (.inl ⟨h6, rfl, rfl⟩)
      · exact mk _ _ (.inr (.inl ⟨rfl, h6, h7, h8, rfl, rfl⟩))
      · rcases h9 with ⟨g1, g2, rfl⟩ | ⟨g1, g2, rfl⟩ | ⟨g1, g2, rfl⟩
        · exact mk _ _ (.inr (.inr (.inl ⟨h6, h7, h8, .inl ⟨g1, g2, rfl, rfl⟩⟩)))
        · exact mk _ _ (.inr (.inr (.inl ⟨h6, h7, h8, .inr (.inl ⟨g1, g2, rfl, rfl⟩)⟩)))
        · exact mk _ _ (.inr (.inr (.inl ⟨h6, h7, h8, .inr (.inr ⟨g1, g2, rfl, rfl⟩)⟩)))
      · exact mk _ _ (.inr (.inr (.inr ⟨h6, h7, rfl, rfl⟩)))
  simp only [ho, hw]
  clear ho hw
  -- the two parts
  have hA : ((if i + 1 < t then do
      let sec ← strAt w (i + 1)
      if ct.isCons sec then twoCons ct w i t l c sec snd cls
      else if UTH.RU = sec then consRu ct w i t c snd cls
      else pure []
    else pure [] : Res (List PartialSyl))).SatP fun a => ∀ q, q ∈ a ↔
      ((∃ d, At w t (i + 1) d ∧ ∃ o, (∃ snd2 cls2, Letter ct d snd2 cls2 ∧ ¬ (d = ch!"ร" ∧ At w t (i + 2) ch!"ร") ∧
        TwoLetters i l c snd cls d snd2 cls2 o) ∧ q = ofOnset o) ∨
      (∃ d, At w t (i + 1) d ∧ ct.isCons d = true ∧ Whole2 ct w t i c snd cls d q)) ∨
      RuAt w t i ∧ ((∃ o, WithRu ct w t i c snd cls o ∧ q = ofOnset o) ∨ WholeRu ct w t i c snd cls q) := by
    by_cases hi : i + 1 < t
    · rw [if_pos hi]
      refine SatP.bind strAt_satP fun d hd => ?_
      have hat := at_iff hi hd
      by_cases hdc : ct.isCons d = true
      · rw [if_pos hdc]
        refine (twoCons_satP hct hdc).mono fun a ha q => ?_
        rw [ha]
        have hnr : ¬ RuAt w t i := by
          rintro ⟨h, -⟩
          rw [hat] at h
          have := hct.cons d hdc
          omega
        simp only [hat, hnr, false_and, or_false]
        constructor
        · rintro (h | h)
          · exact .inl ⟨d, rfl, h⟩
          · exact .inr ⟨d, rfl, hdc, h⟩
        · rintro (⟨_, rfl, h⟩ | ⟨_, rfl, -, h⟩)
          · exact .inl h
          · exact .inr h
      · rw [if_neg hdc]
        have h0 : ∀ q, ¬ ((∃ d, At w t (i + 1) d ∧ ∃ o, (∃ snd2 cls2, Letter ct d snd2 cls2 ∧
              ¬ (d = ch!"ร" ∧ At w t (i + 2) ch!"ร") ∧ TwoLetters i l c snd cls d snd2 cls2 o) ∧ q = ofOnset o) ∨
            (∃ d, At w t (i + 1) d ∧ ct.isCons d = true ∧ Whole2 ct w t i c snd cls d q)) := by
          rintro q (⟨_, h, _, ⟨_, _, h', -⟩, -⟩ | ⟨_, h, h', -⟩)
          · cases (hat _).mp h; exact hdc h'.1
          · cases (hat _).mp h; exact hdc h'
        by_cases hr : UTH.RU = d
        · rw [if_pos hr]
          refine (consRu_satP hct ((hat _).mpr hr.symm)).mono fun a ha q => ?_
          rw [ha, or_iff_right (h0 q)]
        · rw [if_neg hr]
          intro q
          rw [or_iff_right (h0 q)]
          simp only [List.not_mem_nil, false_iff]
          rintro ⟨⟨h, -⟩, -⟩
          exact hr ((hat _).mp h).symm
    · rw [if_neg hi]
      intro q
      have : ∀ d, ¬ At w t (i + 1) d := fun d => not_at hi
      simp [this, RuAt]
  have hC : ((if i + 1 < t then do
      if isSylStart ct (← strAt w (i + 1)) then
        pure [{ pos := i + 1, pre := none, iConsSound := snd, iConsClass := cls,
                iCons2 := SC.NONE, vowel := VW.A, eConsClass := .NONE, tone := .SAMAN,
                isComplete := true }]
      else pure []
    else pure [] : Res (List PartialSyl))).SatP fun a => ∀ q, q ∈ a ↔
      (StartAt ct w t (i + 1) ∧ q = ofWhole ⟨i + 1, none, snd, cls, SC.NONE, some VW.A⟩ ⟨i + 1, false, VW.A, .NONE, .SAMAN⟩) := by
    by_cases hi : i + 1 < t
    · rw [if_pos hi]
      refine SatP.bind strAt_satP fun d hd => ?_
      rw [startAt_iff hi hd]
      split
      · rename_i h
        intro q; simp [h, ofWhole]
      · rename_i h
        intro q; simp [h]
    · rw [if_neg hi]
      intro q
      have : ¬ StartAt ct w t (i + 1) := fun ⟨_, h, _⟩ => hi h.1
      simp [this]
  have fin := fun R => satP_bind2 (R := R) (f := fun a b =>
    a ++ [({ pos := i + 1, pre := none, iConsSound := snd, iConsClass := cls } : PartialSyl)] ++ b) hA hC
  simp only [res_bind_assoc, res_ite_bind] at fin
  refine fin _ fun a b ha hb => ?_
  intro q
  rw [List.mem_append, List.mem_append, ha, hb, List.mem_singleton]
  have : ({ pos := i + 1, pre := none, iConsSound := snd, iConsClass := cls } : PartialSyl) =
    ofOnset ⟨i + 1, none, snd, cls, SC.NONE, none⟩ := rfl
  rw [this]
  generalize (∃ d, At w t (i + 1) d ∧ ∃ o, _) = X1
  generalize (∃ d, At w t (i + 1) d ∧ ct.isCons d = true ∧ _) = X2
  generalize (StartAt ct w t (i + 1) ∧ _) = X3
  generalize (q = ofOnset _) = X4
  generalize (∃ o, WithRu ct w t i c snd cls o ∧ _) = X5
  generalize WholeRu ct w t i c snd cls q = X6
  generalize RuAt w t i = X7
  grind

end Thpronun
