import Verif.Lemmas.Spelling
import Verif.Spec.Parser

/-! # The parser's grammar as a whole against the spelling rules -/

namespace Thpronun

open Res Spec

variable {ct : CType} {w : U16Str} {t : Nat}

/-- The state `e` is that of the onset `o` and the rime `r`. -/
def EmitOf (o : Onset) (r : Rime) (e : Emit) : Prop := Same (ofOnset o) e.p ∧ rimeOf e = r

/-- The states `es` are those of the pairs `S` of onset and rime. -/
def EmitsAll (S : Onset → Rime → Prop) (es : List Emit) : Prop :=
  (∀ e ∈ es, ∃ o r, S o r ∧ EmitOf o r e) ∧ ∀ o r, S o r → ∃ e ∈ es, EmitOf o r e

theorem concatRes_emits {α β} {f : α → Res (List β)} {Q : α → List β → Prop} {l : List α}
    (h : ∀ a ∈ l, (f a).SatP (Q a)) : (concatRes f l).SatP fun es =>
      (∀ e ∈ es, ∃ a ∈ l, ∃ x, Q a x ∧ e ∈ x) ∧ ∀ a ∈ l, ∃ x, Q a x ∧ ∀ e ∈ x, e ∈ es := by
  induction l with
  | nil => simp [concatRes]
  | cons a l ih =>
    rw [concatRes]
    refine SatP.bind (h a (by simp)) fun x hx => SatP.bind (ih fun b hb => h b (by simp [hb])) fun y hy => ?_
    refine (satP_ok ..).mpr ⟨fun e he => ?_, fun b hb => ?_⟩
    · rcases List.mem_append.mp he with he | he
      · exact ⟨a, by simp, x, hx, he⟩
      · obtain ⟨b, hb, r⟩ := hy.1 e he
        exact ⟨b, by simp [hb], r⟩
    · rcases List.mem_cons.mp hb with rfl | hb
      · exact ⟨x, hx, fun e he => by simp [he]⟩
      · obtain ⟨z, h1, h2⟩ := hy.2 b hb
        exact ⟨z, h1, fun e he => by simp [h2 e he]⟩

/-- The onsets with inherent vowel have a proper one. -/
theorem onset_inh {i : Nat} {l : Bool} {o : Onset} (h : OnsetAt ct w t i l o) : Inh o (ofOnset o).vowel := by
  have aux : o.inherent ≠ some VW.INVALID → Inh o (ofOnset o).vowel := by
    intro h
    unfold Inh ofOnset
    cases h' : o.inherent with
    | none => simp
    | some v => rw [h'] at h; simpa using h
  apply aux
  obtain ⟨c, snd, cls, -, -, h⟩ := h
  rcases h with rfl | ⟨d, s2, c2, -, -, -, h⟩ | ⟨-, h⟩
  · simp
  · rcases h with ⟨_, _, -, -, -, rfl⟩ | ⟨-, -, -, rfl⟩ | ⟨-, -, rfl⟩ | rfl <;> simp
  · rcases h with ⟨-, rfl⟩ | ⟨-, rfl | rfl⟩ | ⟨-, rfl⟩ | ⟨-, rfl⟩ | ⟨-, -, rfl⟩ | ⟨-, v, h, ⟨-, rfl⟩ | rfl⟩
    all_goals try rcases h with rfl | rfl
    all_goals exact fun h => absurd (Option.some.inj h) (by decide)

theorem whole_eq {i : Nat} {o : Onset} {r : Rime} (h : WholeAt ct w t i o r) :
    o.stop = r.stop ∧ r.linked = false := by
  obtain ⟨c, snd, cls, -, -, h⟩ := h
  rcases h with ⟨-, rfl, rfl⟩ | ⟨-, -, -, -, rfl, rfl⟩ | ⟨-, -, -, h⟩ | ⟨-, -, rfl, rfl⟩
  · exact ⟨rfl, rfl⟩
  · exact ⟨rfl, rfl⟩
  · rcases h with ⟨-, -, rfl, rfl⟩ | ⟨-, -, rfl, rfl⟩ | ⟨-, -, rfl, rfl⟩ <;> exact ⟨rfl, rfl⟩
  · exact ⟨rfl, rfl⟩

theorem parseThCons_spelled (hct : ct.Ok) {i : Nat} {l : Bool} :
    (parseThCons ct w i t l).SatP (EmitsAll fun o r =>
      (OnsetAt ct w t i l o ∧ o.stop < t ∧ ConsRime ct w t o l r) ∨ (WholeAt ct w t i o r ∧ r.stop < t)) := by
  unfold parseThCons
  refine SatP.bind (matchInitCons_satP hct) fun ps hps => ?_
  refine (concatRes_emits (Q := fun p es =>
    (∀ o, OnsetAt ct w t i l o → p = ofOnset o → if o.stop < t then Emits p (ConsRime ct w t o l) es else es = []) ∧
    (∀ o r, WholeAt ct w t i o r → p = ofWhole o r → if r.stop < t then es = [⟨p.pos, false, p⟩] else es = [])) ?_).mono ?_
  · intro p hp
    rcases (hps p).mp hp with ⟨o, ho, rfl⟩ | ⟨o, r, ho, rfl⟩
    · by_cases h : o.stop < t
      · refine (thConsOne_emits hct (o := o) rfl rfl rfl (onset_inh ho) rfl h).mono fun es hes => ⟨?_, ?_⟩
        · intro o' ho' he
          have e1 : o'.stop = o.stop := congrArg PartialSyl.pos he.symm
          have e2 : o'.pre = o.pre := congrArg PartialSyl.pre he.symm
          have e3 : o'.sound = o.sound := congrArg PartialSyl.iConsSound he.symm
          have e4 : o'.cls = o.cls := congrArg PartialSyl.iConsClass he.symm
          have e5 : o'.second = o.second := congrArg PartialSyl.iCons2 he.symm
          have e6 : o'.inherent = o.inherent := by
            have := onset_inh ho
            have h2 := onset_inh ho'
            rw [← he] at h2
            rcases this with ⟨a, b⟩ | ⟨a, b⟩ <;> rcases h2 with ⟨c, d⟩ | ⟨c, d⟩
            · rw [a, c]
            · exact absurd b d
            · exact absurd d b
            · rw [a, c]
          have : o' = o := by
            cases o; cases o'; simp_all
          rw [this, if_pos h]; exact hes
        · intro o' r' ho' he
          have := congrArg PartialSyl.isComplete he
          simp [ofOnset, ofWhole] at this
      · unfold thConsOne
        rw [if_pos (by simp [ofOnset]; omega)]
        refine (satP_ok ..).mpr ⟨?_, ?_⟩
        · intro o' ho' he
          have e1 : o'.stop = o.stop := congrArg PartialSyl.pos he.symm
          rw [if_neg (by omega)]
        · intro o' r' ho' he
          have := congrArg PartialSyl.isComplete he
          simp [ofOnset, ofWhole] at this
    · have hw := whole_eq ho
      have aux : ∀ es : List Emit, es = (if r.stop < t then [⟨(ofWhole o r).pos, false, ofWhole o r⟩] else []) →
        (∀ o', OnsetAt ct w t i l o' → ofWhole o r = ofOnset o' →
          if o'.stop < t then Emits (ofWhole o r) (ConsRime ct w t o' l) es else es = []) ∧
        (∀ o' r', WholeAt ct w t i o' r' → ofWhole o r = ofWhole o' r' →
          if r'.stop < t then es = [⟨(ofWhole o r).pos, false, ofWhole o r⟩] else es = []) := by
        intro es hes
        refine ⟨?_, ?_⟩
        · intro o' ho' he
          have := congrArg PartialSyl.isComplete he
          simp [ofOnset, ofWhole] at this
        · intro o' r' ho' he
          have e1 : o.stop = o'.stop := congrArg PartialSyl.pos he
          have e2 := (whole_eq ho').1
          have : r'.stop = r.stop := by omega
          rw [hes, this]
          by_cases h : r.stop < t
          · rw [if_pos h, if_pos h]
          · rw [if_neg h, if_neg h]
      unfold thConsOne
      by_cases h : r.stop < t
      · rw [if_neg (by simp [ofWhole]; omega), if_pos (show (ofWhole o r).isComplete = true from rfl)]
        exact (satP_ok ..).mpr (aux _ (by rw [if_pos h]))
      · rw [if_pos (by simp [ofWhole]; omega)]
        exact (satP_ok ..).mpr (aux _ (by rw [if_neg h]))
  · rintro es ⟨h1, h2⟩
    refine ⟨fun e he => ?_, ?_⟩
    · obtain ⟨p, hp, x, ⟨hx1, hx2⟩, hex⟩ := h1 e he
      rcases (hps p).mp hp with ⟨o, ho, rfl⟩ | ⟨o, r, ho, rfl⟩
      · have := hx1 o ho rfl
        by_cases h : o.stop < t
        · rw [if_pos h] at this
          exact ⟨o, rimeOf e, .inl ⟨ho, h, (this.2 _).mpr ⟨e, hex, rfl⟩⟩, this.1 e hex, rfl⟩
        · rw [if_neg h] at this
          subst this; cases hex
      · have := hx2 o r ho rfl
        have hw := whole_eq ho
        by_cases h : r.stop < t
        · rw [if_pos h] at this
          subst this
          cases List.mem_singleton.mp hex
          refine ⟨o, r, .inr ⟨ho, h⟩, ⟨rfl, rfl, rfl, rfl⟩, ?_⟩
          cases r; simp only at hw; simp [rimeOf, ofWhole, hw]
        · rw [if_neg h] at this
          subst this; cases hex
    · rintro o r (⟨ho, h, hr⟩ | ⟨ho, h⟩)
      · obtain ⟨x, ⟨hx1, -⟩, hx⟩ := h2 _ ((hps _).mpr (.inl ⟨o, ho, rfl⟩))
        have := hx1 o ho rfl
        rw [if_pos h] at this
        obtain ⟨e, he, h3⟩ := (this.2 r).mp hr
        exact ⟨e, hx e he, this.1 e he, h3⟩
      · obtain ⟨x, ⟨-, hx2⟩, hx⟩ := h2 _ ((hps _).mpr (.inr ⟨o, r, ho, rfl⟩))
        have := hx2 o r ho rfl
        rw [if_pos h] at this
        subst this
        have hw := whole_eq ho
        refine ⟨⟨(ofWhole o r).pos, false, ofWhole o r⟩, hx _ (by simp), ⟨rfl, rfl, rfl, rfl⟩, ?_⟩
        cases r; simp only at hw; simp [rimeOf, ofWhole, hw]

/-- Leading vowels: whole syllables are not used. -/
theorem lead_spelled {i : Nat} {l : Bool} {f : PartialSyl → Res (List Emit)} {R : Onset → Rime → Prop}
    (hct : ct.Ok) (h1 : ∀ o, (f (ofOnset o)).SatP (Emits (ofOnset o) (R o)))
    (h2 : ∀ o r, f (ofWhole o r) = .ok []) :
    (matchInitCons ct w i t l >>= fun ps => concatRes f ps).SatP
      (EmitsAll fun o r => OnsetAt ct w t i l o ∧ R o r) := by
  refine SatP.bind (matchInitCons_satP hct) fun ps hps => ?_
  refine (concatRes_emits (Q := fun p es =>
    (∀ o, p = ofOnset o → Emits p (R o) es) ∧ (∀ o r, p = ofWhole o r → es = [])) ?_).mono ?_
  · intro p hp
    rw [satP_iff]
    intro es hes
    refine ⟨?_, ?_⟩
    · rintro o rfl
      exact (satP_iff _ _).mp (h1 o) es hes
    · rintro o r rfl
      rw [h2] at hes; cases hes; rfl
  · rintro es ⟨h1, h2⟩
    refine ⟨fun e he => ?_, ?_⟩
    · obtain ⟨p, hp, x, ⟨hx1, hx2⟩, hex⟩ := h1 e he
      rcases (hps p).mp hp with ⟨o, ho, rfl⟩ | ⟨o, r, ho, rfl⟩
      · have := hx1 o rfl
        exact ⟨o, rimeOf e, ⟨ho, (this.2 _).mpr ⟨e, hex, rfl⟩⟩, this.1 e hex, rfl⟩
      · have := hx2 o r rfl
        subst this; cases hex
    · rintro o r ⟨ho, hr⟩
      obtain ⟨x, ⟨hx1, -⟩, hx⟩ := h2 _ ((hps _).mpr (.inl ⟨o, ho, rfl⟩))
      have := hx1 o rfl
      obtain ⟨e, he, h3⟩ := (this.2 r).mp hr
      exact ⟨e, hx e he, this.1 e he, h3⟩

theorem parseSaraE_spelled (hct : ct.Ok) {i : Nat} {l : Bool} :
    (parseSaraE ct w i t l).SatP (EmitsAll fun o r =>
      i + 1 < t ∧ OnsetAt ct w t (i + 1) l o ∧ ERime ct w t o r) := by
  unfold parseSaraE
  split
  · rename_i h
    refine (satP_ok ..).mpr ⟨by simp, fun o r h' => absurd h'.1 (by omega)⟩
  · rename_i h
    have h : i + 1 < t := by omega
    simp only [h, true_and]
    exact lead_spelled hct (fun o => saraEOne_emits hct rfl rfl rfl rfl) (fun _ _ => rfl)

theorem parseOtherLV_spelled (hct : ct.Ok) {i : Nat} {l : Bool} {c : Nat} (hc : w[i]? = some c) :
    (parseOtherLV ct w i t l).SatP (EmitsAll fun o r =>
      OnsetAt ct w t (i + 1) l o ∧ LeadRime ct w t c o.stop r) := by
  unfold parseOtherLV
  refine SatP.bind strAt_satP fun c' hc' => ?_
  rw [hc] at hc'; cases hc'
  exact lead_spelled hct (fun o => otherLVOne_emits hct rfl rfl) (fun _ _ => rfl)

/-- The partial syllable that `ParseRuLu` starts with. -/
def ruP (i c : Nat) : PartialSyl :=
  { pos := i + 1, pre := none, iConsSound := if UTH.LU = c then .LA else .RA, iConsClass := .LOWS,
    iCons2 := SC.NONE, tone := .SAMAN }

theorem parseRuLu_spelled (hct : ct.Ok) {i : Nat} {c : Nat} (hc : w[i]? = some c) :
    (parseRuLu ct w i t).SatP (EmitsAll fun o r =>
      o = ⟨i + 1, none, if c = ch!"ฦ" then .LA else .RA, .LOWS, SC.NONE, none⟩ ∧ RuRime ct w t i r) := by
  unfold parseRuLu
  refine SatP.bind strAt_satP fun c' hc' => ?_
  rw [hc] at hc'; cases hc'
  have conv : ∀ es, Emits (ruP i c) (RuRime ct w t i) es →
      EmitsAll (fun o r => o = ⟨i + 1, none, if c = ch!"ฦ" then .LA else .RA, .LOWS, SC.NONE, none⟩ ∧
        RuRime ct w t i r) es := by
    intro es h
    have hs : (if UTH.LU = c then InitConsSound.LA else .RA) = if c = ch!"ฦ" then .LA else .RA := by
      simp only [UTH.LU, eq_comm]
    refine ⟨fun e he => ⟨_, rimeOf e, ⟨rfl, (h.2 _).mpr ⟨e, he, rfl⟩⟩, ?_, rfl⟩, ?_⟩
    · have := h.1 e he
      simp only [Same, ofOnset, ruP] at this ⊢
      rw [← hs]; exact this
    · rintro o r ⟨rfl, hr⟩
      obtain ⟨e, he, h3⟩ := (h.2 r).mp hr
      refine ⟨e, he, ?_, h3⟩
      have := h.1 e he
      simp only [Same, ofOnset, ruP] at this ⊢
      rw [← hs]; exact this
  refine SatP.mono ?_ conv
  clear conv
  change SatP (have p := ruP i c; _) _
  dsimp only
  by_cases hi : i + 1 ≥ t
  · rw [if_pos hi]
    refine (satP_ok ..).mpr (emits_one fun r => ?_)
    have : ∀ d, ¬ At w t (i + 1) d := fun d h => by have := h.1; omega
    simp [RuRime, this, hi, rimeOf]
  rw [if_neg hi]
  refine SatP.bind strAt_satP fun d hd => ?_
  have hi : i + 1 < t := by omega
  have ha := at_iff hi hd
  have hle : ¬ t ≤ i + 1 := by omega
  by_cases h1 : UTH.LAKKHANGYAO = d ∨ UTH.SARA_AA = d
  · rw [if_pos h1]
    refine (satP_ok ..).mpr (emits_one fun r => ?_)
    have hnc : ct.isCons d = false := by
      cases h : ct.isCons d with
      | false => rfl
      | true =>
        have := hct.cons d h
        simp only [UTH.LAKKHANGYAO, UTH.SARA_AA] at h1
        omega
    have h2 : d = ch!"ๅ" ∨ d = ch!"า" := by
      simp only [UTH.LAKKHANGYAO, UTH.SARA_AA] at h1
      omega
    rw [RuRime]
    simp only [ha, hle, false_and, false_or, h2, true_and]
    constructor
    · rintro (h | ⟨_, rfl, h, -⟩)
      · exact h
      · rw [hnc] at h; cases h
    · exact .inl
  rw [if_neg h1]
  have h2 : ¬ (d = ch!"ๅ" ∨ d = ch!"า") := by
    simp only [UTH.LAKKHANGYAO, UTH.SARA_AA] at h1
    omega
  have hr : ∀ r, RuRime ct w t i r ↔ ct.isCons d = true ∧
    (((d ∈ finalLetters .NONE ∨ (i + 2 < t ∧ ¬ StartAt ct w t (i + 2))) ∧
       r = ⟨i + 1, false, VW.UE, .NONE, .SAMAN⟩) ∨
     (¬ (d ∈ finalLetters .NONE ∨ (i + 2 < t ∧ ¬ StartAt ct w t (i + 2))) ∧
       ShutX ct w t (i + 1) [] (if d ∈ u!"ณทษ" then VW.I else VW.UE) .SAMAN r)) := by
    intro r
    rw [RuRime, ha, ha, or_iff_right (fun h => hle h.1), or_iff_right (fun h => h2 h.1)]
    constructor
    · rintro ⟨d', h, h'⟩
      cases (ha _).mp h
      exact h'
    · exact fun h => ⟨d, (ha _).mpr rfl, h⟩
  by_cases hcc : ct.isCons d = true
  · rw [if_pos hcc]
    obtain ⟨f, hf1, hf2⟩ := C02_final d (cons_isConsonant hct hcc)
    rw [hf1, ok_bind]
    have hf : EndConsClass.NONE = f ↔ d ∈ finalLetters .NONE := by
      constructor
      · rintro rfl; exact hf2
      · intro h
        have := C02_final_conv _ _ h
        rw [hf1] at this; cases this; rfl
    have main : ∀ b : Bool, (b = true ↔ d ∈ finalLetters .NONE ∨ (i + 2 < t ∧ ¬ StartAt ct w t (i + 2))) →
      ((if b = true then pure [⟨i + 1, false, { ruP i c with vowel := VW.UE, eConsClass := .NONE }⟩]
      else if d ∈ [UTH.NO_NEN, UTH.THO_THAHAN, UTH.SO_RUSI] then
        eatEndConsComplex ct w t { ruP i c with vowel := VW.I } []
      else eatEndConsComplex ct w t { ruP i c with vowel := VW.UE } [] : Res (List Emit))).SatP
        (Emits (ruP i c) (RuRime ct w t i)) := by
      intro b hb
      by_cases h : b = true
      · rw [if_pos h]
        refine (satP_ok ..).mpr (emits_one fun r => ?_)
        rw [hr, and_iff_right hcc, or_iff_left (fun h' => h'.1 (hb.mp h)), and_iff_right (hb.mp h)]
        rfl
      · rw [if_neg h]
        have hb' := fun h' => h (hb.mpr h')
        by_cases hd : d ∈ [UTH.NO_NEN, UTH.THO_THAHAN, UTH.SO_RUSI]
        · rw [if_pos hd]
          refine (eatEndConsComplex_same hct hi).mono fun es h => ⟨h.1, fun r => ?_⟩
          rw [← h.2, hr, and_iff_right hcc, or_iff_right (fun h' => hb' h'.1), and_iff_right hb', if_pos (show d ∈ u!"ณทษ" from hd)]
          exact Iff.rfl
        · rw [if_neg hd]
          refine (eatEndConsComplex_same hct hi).mono fun es h => ⟨h.1, fun r => ?_⟩
          rw [← h.2, hr, and_iff_right hcc, or_iff_right (fun h' => hb' h'.1), and_iff_right hb', if_neg (show ¬ d ∈ u!"ณทษ" from hd)]
          exact Iff.rfl
    by_cases hfn : EndConsClass.NONE = f
    · rw [if_pos hfn, pure_eq, ok_bind]
      exact main true (by simp [hf.mp hfn])
    · rw [if_neg hfn]
      have hfn' := fun h => hfn (hf.mpr h)
      by_cases hi2 : i + 2 < t
      · rw [if_pos hi2]
        refine SatP.bind strAt_satP fun e he => ?_
        exact main _ (by rw [or_iff_right hfn', and_iff_right hi2, startAt_iff hi2 he]; simp)
      · rw [if_neg hi2]
        exact main false (by rw [or_iff_right hfn']; simp [hi2])
  · rw [if_neg hcc]
    exact (satP_ok ..).mpr (emits_nil fun r h => hcc ((hr r).mp h).1)

theorem grammar_spelled (hct : ct.Ok) {i : Nat} {l : Bool} {c : Nat} (hc : w[i]? = some c) :
    (grammar ct w i t l c).SatP (EmitsAll (Spelled ct w t i l)) := by
  have key : ∀ {S : Onset → Rime → Prop} {r : Res (List Emit)}, (∀ o r, Spelled ct w t i l o r ↔ S o r) →
      r.SatP (EmitsAll S) → r.SatP (EmitsAll (Spelled ct w t i l)) := by
    intro S r h h'
    have : Spelled ct w t i l = S := by funext o r; exact propext (h o r)
    rwa [this]
  have sp : ∀ o r, Spelled ct w t i l o r ↔
    ((ct.isCons c = true ∧
       ((OnsetAt ct w t i l o ∧ o.stop < t ∧ ConsRime ct w t o l r) ∨ (WholeAt ct w t i o r ∧ r.stop < t))) ∨
     (c = ch!"เ" ∧ i + 1 < t ∧ OnsetAt ct w t (i + 1) l o ∧ ERime ct w t o r) ∨
     (ct.isLdVowel c = true ∧ c ≠ ch!"เ" ∧ OnsetAt ct w t (i + 1) l o ∧ LeadRime ct w t c o.stop r) ∨
     ((c = ch!"ฤ" ∨ c = ch!"ฦ") ∧
       o = ⟨i + 1, none, if c = ch!"ฦ" then .LA else .RA, .LOWS, SC.NONE, none⟩ ∧ RuRime ct w t i r)) := by
    intro o r
    constructor
    · rintro ⟨c', h, h'⟩
      rw [hc] at h; cases h; exact h'
    · exact fun h => ⟨c, hc, h⟩
  unfold grammar
  have hld : ct.isLdVowel c = true → 0x0e40 ≤ c ∧ c ≤ 0x0e44 := hct.ld c
  by_cases h1 : ct.isCons c = true
  · rw [if_pos h1]
    have := hct.cons c h1
    refine key (fun o r => ?_) (parseThCons_spelled hct)
    rw [sp, and_iff_right h1]
    refine or_iff_left ?_
    rintro (h | ⟨h, -⟩ | ⟨h, -⟩)
    · omega
    · have := hld h; omega
    · omega
  rw [if_neg h1]
  by_cases h2 : c = UTH.SARA_E
  · rw [if_pos h2]
    refine key (fun o r => ?_) (parseSaraE_spelled hct)
    have h2 : c = ch!"เ" := h2
    rw [sp, or_iff_right (fun h => h1 h.1), and_iff_right h2]
    refine or_iff_left ?_
    rintro (⟨-, h, -⟩ | ⟨h, -⟩)
    · exact h h2
    · omega
  rw [if_neg h2]
  have h2 : ¬ c = ch!"เ" := h2
  by_cases h3 : ct.isLdVowel c = true
  · rw [if_pos h3]
    refine key (fun o r => ?_) (parseOtherLV_spelled hct hc)
    rw [sp, or_iff_right (fun h => h1 h.1), or_iff_right (fun h => h2 h.1), and_iff_right h3, and_iff_right h2]
    refine or_iff_left ?_
    rintro ⟨h, -⟩
    have := hld h3
    omega
  rw [if_neg h3]
  by_cases h4 : c = UTH.RU ∨ c = UTH.LU
  · rw [if_pos h4]
    refine key (fun o r => ?_) (parseRuLu_spelled hct hc)
    rw [sp, or_iff_right (fun h => h1 h.1), or_iff_right (fun h => h2 h.1), or_iff_right (fun h => h3 h.1),
      and_iff_right]
    exact h4
  · rw [if_neg h4]
    refine key (S := fun _ _ => False) (fun o r => ?_) ((satP_ok ..).mpr ⟨by simp, by simp⟩)
    rw [sp, or_iff_right (fun h => h1 h.1), or_iff_right (fun h => h2 h.1), or_iff_right (fun h => h3 h.1)]
    simp only [iff_false]
    exact fun h => h4 h.1

end Thpronun
