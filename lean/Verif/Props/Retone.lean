import Verif.Lemmas.Retone
import Verif.Props.Failing
import Verif.Props.Listed
import Verif.Props.Concat

/-! # Tone marks: C81 -/

namespace Thpronun
open Res Spec DAG

variable {ct : CType} {w w' : U16Str} {look : List Nat → Option Str} {brk : List Int} {p : Parser} {d : PronunDAG}

theorem spokenTone_valid {cls v f m c} (h : (c, m) ∈ marks) : spokenTone cls v f m ≠ .INVALID := by
  have hm : m ≠ .INVALID := (by decide : ∀ x ∈ marks, x.2 ≠ .INVALID) _ h
  unfold spokenTone
  cases hp : prescribed cls m (decide (Dead v f)) (decide (v ∈ shortVowels)) with
  | none => exact hm
  | some t =>
    revert hp
    generalize decide (Dead v f) = a
    generalize decide (v ∈ shortVowels) = b
    revert hm
    clear h
    intro hm hp
    show t ≠ .INVALID
    rintro rfl
    revert hp
    cases cls <;> cases m <;> cases a <;> cases b <;> first | decide | exact absurd rfl hm

theorem Retoned.symm {a b : Int} {x x' : Syl} (h : Retoned w w' a b x x') : Retoned w' w a b x' x := by
  rcases h with h | ⟨cls, m, m', ⟨q, c, c', h1, h2, h3, h4, h5, h6⟩, h7, h8, h9⟩
  · exact .inl (LawfulCppEq.symm h)
  · obtain ⟨g1, g2⟩ := (Syl.eq_iff _ _).mp h9
    have hl : x'.literal = [] := g1.trans h7
    obtain ⟨f1, f2, f3, f4, f5⟩ := g2 (by unfold Syl.isLiteral; rw [hl]; rfl)
    refine .inr ⟨cls, m', m, ⟨q, c', c, h1, h2, h4, h3, h6, h5⟩, hl, by rw [f3, f4]; exact f5, ?_⟩
    rw [show ∀ a b : Syl, ceq a b = Syl.eq a b from fun _ _ => rfl, Syl.eq_iff]
    exact ⟨g1.symm, fun _ => ⟨f1.symm, f2.symm, f3.symm, f4.symm, by rw [f3, f4]; exact h8⟩⟩

theorem RetonedPron.symm : ∀ {s s' : List Syl} {a : Int}, RetonedPron w w' a s s' → RetonedPron w' w a s' s
  | [], [], _, _ => trivial
  | x :: s, x' :: s', _, h => ⟨h.1.symm, h.1.symm ▸ Retoned.symm h.2.1, h.1.symm ▸ RetonedPron.symm h.2.2⟩
  | [], _ :: _, _, h => h.elim
  | _ :: _, [], _, h => h.elim

theorem RetonedPron.refl : ∀ (s : List Syl) (a : Int), RetonedPron w w' a s s
  | [], _ => trivial
  | x :: s, _ => ⟨rfl, .inl (LawfulCppEq.refl x), RetonedPron.refl s _⟩

/-- The rules read the two texts alike: to every reading of the one there is one of the other, with the same syllables
but for the tones of those whose marks have been exchanged. -/
theorem C81_readings (hct : ct.Ok) (X : Exchanged ct w w')
    (hl : ∀ p q, p < q → q ≤ w.length → look (piece w p q) = look (piece w' p q)) {es : List (Entry Syl)}
    (h : RuleReading ct w look brk es) :
    ∃ es', RuleReading ct w' look brk es' ∧
      List.Forall₂ (fun e e' => e'.key = e.key ∧ e'.target = e.target ∧ Retoned w w' e.key e.target e.val e'.val) es es' :=
  reReading hct X hl h

/-- A text in which tone marks are exchanged for other tone marks (and no dictionary word contains one of them, and the
word breaks are the same) is parsed if the first one is, and the pronunciations correspond to each other, syllable by
syllable: only the tones of the syllables that bear these marks are others, following the tone rules. -/
theorem C81_listed (hct : ct.Ok) {word word' : Str} (hw : fromBytes word = .ok w) (hw' : fromBytes word' = .ok w')
    (X : Exchanged ct w w') (hd : Holds p.exceptDict look) (hg : GoodLook look)
    (hl : ∀ p q, p < q → q ≤ w.length → look (piece w p q) = look (piece w' p q))
    (hbrk : findBreaks w' p.thBrk = findBreaks w p.thBrk) (hb : ∀ b ∈ findBreaks w p.thBrk, b ≤ w.length)
    (h : p.parseWord ct word = .ok d) :
    ∃ d' ss ss', p.parseWord ct word' = .ok d' ∧ PronunDAG.sylStrings d 0 = .ok ss ∧ PronunDAG.sylStrings d' 0 = .ok ss' ∧
      (∀ s ∈ ss, ∃ s' ∈ ss', RetonedPron w w' 0 s s') ∧ (∀ s' ∈ ss', ∃ s ∈ ss, RetonedPron w w' 0 s s') := by
  have hr : Readable look := fun x data hx => (hg x data hx).imp fun _ h => h.1
  have hl' : ∀ p q, p < q → q ≤ w'.length → look (piece w' p q) = look (piece w p q) :=
    fun p q h1 h2 => (hl p q h1 (X.len ▸ h2)).symm
  rw [C37_word p word w hw] at h
  rw [C37_word p word' w' hw', hbrk]
  obtain ⟨d', h'⟩ : ∃ d', parseU16 ct w' p.exceptDict (findBreaks w p.thBrk) = .ok d' := by
    have k := C37_exact hct w p.exceptDict _ look hd hr hb
    have k' := C37_exact hct w' p.exceptDict (findBreaks w p.thBrk) look hd hr (by rw [← X.len]; exact hb)
    rcases k'.1 with k1 | k1
    · exact k1
    · obtain ⟨c, hc⟩ := k'.2.mp k1
      obtain ⟨c', hc'⟩ := reDeadEnd hct X.symm hl' hc
      rw [k.2.mpr ⟨c', hc'⟩] at h
      cases h
  rw [h']
  by_cases hne : w = []
  · subst hne
    cases X
    rw [h] at h'
    cases h'
    obtain ⟨ss, hs, -⟩ := C38_listing hct hw hd hg (by rw [C37_word p word [] hw]; exact h)
    exact ⟨d, ss, ss, rfl, hs, hs, fun s hs => ⟨s, hs, RetonedPron.refl s 0⟩, fun s hs => ⟨s, hs, RetonedPron.refl s 0⟩⟩
  · have hne' : w' ≠ [] := fun e => hne (List.eq_nil_of_length_eq_zero (by rw [X.len, e]; rfl))
    obtain ⟨ss, a1, a2, a3, -⟩ := listing_routes hct hd hg hne h
    obtain ⟨ss', b1, b2, b3, -⟩ := listing_routes hct hd hg hne' h'
    refine ⟨d', ss, ss', rfl, a1, b1, fun s hs => ?_, fun s' hs' => ?_⟩
    · obtain ⟨s1, k1, k2⟩ := reRoute hct X hl s (a2 s hs)
      obtain ⟨s2, k3, k4⟩ := b3 s1 (X.len ▸ k1)
      exact ⟨s2, k3, RetonedPron.congr k2 k4⟩
    · obtain ⟨s1, k1, k2⟩ := reRoute hct X.symm hl' s' (b2 s' hs')
      obtain ⟨s2, k3, k4⟩ := a3 s1 (X.len.symm ▸ k1)
      exact ⟨s2, k3, RetonedPron.symm (RetonedPron.congr k2 k4)⟩

/-- Syllables that differ in the tone only are spelled alike in Roman letters and have the same code. -/
theorem retoned_text {a b : Int} {x x' : Syl} (h : Retoned w w' a b x x') :
    romanSyl x = romanSyl x' ∧ soundexSyl x = soundexSyl x' ∧ ceq x Syl.blank = ceq x' Syl.blank ∧
      (ceq x Syl.blank = false → x.literal = [] → x.iCons1 = x'.iCons1 ∧ x.eCons = x'.eCons) := by
  rcases h with h | ⟨cls, m, m', ⟨q, c, c', h1, h2, h3, h4, h5, h6⟩, h7, h8, h9⟩
  · refine ⟨text_same (by simp) h, text_same (by simp) h, ?_, fun _ hl => ?_⟩
    · rw [Bool.eq_iff_iff]
      exact ⟨fun h' => LawfulCppEq.trans (LawfulCppEq.symm h) h', fun h' => LawfulCppEq.trans h h'⟩
    · have := ((Syl.eq_iff _ _).mp h).2 (by unfold Syl.isLiteral; rw [hl]; rfl)
      exact ⟨this.1, this.2.2.2.1⟩
  · obtain ⟨g1, g2⟩ := (Syl.eq_iff _ _).mp h9
    have hl : x'.literal = [] := g1.trans h7
    obtain ⟨f1, f2, f3, f4, f5⟩ := g2 (by unfold Syl.isLiteral; rw [hl]; rfl)
    have nb : ∀ {y : Syl}, y.literal = [] → y.tone ≠ .INVALID → ceq y Syl.blank = false := fun {y} hy ht => by
      rw [Bool.eq_false_iff]
      intro h
      exact ht (((Syl.eq_iff _ _).mp h).2 (by unfold Syl.isLiteral; rw [hy]; rfl)).2.2.2.2
    have n1 := nb h7 (by rw [h8]; exact spokenTone_valid h5)
    have n2 := nb hl (by rw [f5]; exact spokenTone_valid h6)
    have i1 : x.isLiteral = false := by unfold Syl.isLiteral; rw [h7]; rfl
    have i2 : x'.isLiteral = false := by unfold Syl.isLiteral; rw [hl]; rfl
    refine ⟨?_, ?_, by rw [n1, n2], fun _ _ => ⟨f1.symm, f4.symm⟩⟩
    · unfold romanSyl; rw [n1, n2, i1, i2, f1, f2, f3, f4]; rfl
    · unfold soundexSyl; rw [n1, n2, i1, i2, f1, f3, f4]; rfl

theorem retoned_soundex (delim : Byte) : ∀ {s s' : List Syl} {a : Int} (b : Bool), RetonedPron w w' a s s' →
    delimLoop soundexSyl delim b s = delimLoop soundexSyl delim b s'
  | [], [], _, _, _ => rfl
  | x :: s, x' :: s', _, b, h => by
    obtain ⟨-, h1, h2⟩ := h
    obtain ⟨-, k1, k2, -⟩ := retoned_text h1
    rw [delimLoop, delimLoop, ← k1, ← k2, retoned_soundex delim true h2, retoned_soundex delim false h2]
  | [], _ :: _, _, _, h => h.elim
  | _ :: _, [], _, _, h => h.elim

theorem retoned_romanLoop : ∀ {s s' : List Syl} {a : Int} (b : Bool) {y y' : Syl}, RetonedPron w w' a s s' →
    (∀ x ∈ s, x.literal = [] ∧ ceq x Syl.blank = false) → y.eCons = y'.eCons → romanLoop y b s = romanLoop y' b s'
  | [], [], _, _, _, _, _, _, _ => rfl
  | x :: s, x' :: s', _, b, y, y', h, hx, hy => by
    obtain ⟨-, h1, h2⟩ := h
    obtain ⟨k0, -, k2, k3⟩ := retoned_text h1
    obtain ⟨l1, l2⟩ := hx x List.mem_cons_self
    obtain ⟨k4, k5⟩ := k3 l2 l1
    rw [romanLoop, romanLoop, ← k0, ← k2, l2, hy, k4, retoned_romanLoop b h2 (fun z hz => hx z (List.mem_cons_of_mem _ hz)) k5]
    rfl
  | [], _ :: _, _, _, _, _, h, _, _ => h.elim
  | _ :: _, [], _, _, _, _, h, _, _ => h.elim

/-- Roman letters and the sound code do not show tones: corresponding pronunciations have the same line of codes, and the
same line of Roman letters if there is no other text in it. -/
theorem C81_lines {s s' : List Syl} {a : Int} (h : RetonedPron w w' a s s') :
    (∀ delim, delimStr soundexSyl delim s = delimStr soundexSyl delim s') ∧
    ((∀ x ∈ s, ValidSyl x) → ∀ cap, romanStr cap s = romanStr cap s') := by
  refine ⟨fun delim => retoned_soundex delim true h, fun hv cap => ?_⟩
  have hx : ∀ x ∈ s, x.literal = [] ∧ ceq x Syl.blank = false := fun x hx =>
    ⟨(hv x hx).literal, by
      rw [Bool.eq_false_iff]
      intro h
      exact (hv x hx).iCons1 (((Syl.eq_iff _ _).mp h).2 (by unfold Syl.isLiteral; rw [(hv x hx).literal]; rfl)).1⟩
  cases s with
  | nil => cases s' with
    | nil => rfl
    | cons _ _ => exact h.elim
  | cons x s => cases s' with
    | nil => exact h.elim
    | cons x' s' =>
      obtain ⟨-, h1, h2⟩ := h
      obtain ⟨l1, l2⟩ := hx x List.mem_cons_self
      obtain ⟨k0, -, -, k3⟩ := retoned_text h1
      rw [romanStr, romanStr, ← k0, retoned_romanLoop false h2 (fun z hz => hx z (List.mem_cons_of_mem _ hz)) (k3 l2 l1).2]

/-- The hypotheses are met: ก่า and ก้า, which are read in the low and in the falling tone. -/
example : Exchanged thaiCType u!"มาก่า" u!"มาก้า" ∧ (Parser.new (fun _ => []) false).exceptDict = none ∧
    Holds none (fun _ => none) ∧ GoodLook (fun _ => none) ∧
    ∃ d ss, parseU16 thaiCType u!"มาก่า" none [] = .ok d ∧ PronunDAG.sylStrings d 0 = .ok ss ∧ ss ≠ [] ∧
    Retoned u!"มาก่า" u!"มาก้า" 2 5 ⟨.KA, SC.NONE, VW.AA, .NONE, .EK, [], 5⟩ ⟨.KA, SC.NONE, VW.AA, .NONE, .THO, [], 5⟩ := by
  refine ⟨?_, rfl, holds_none, ?_, ?_⟩
  · exact .cons (.inl rfl) (.cons (.inl rfl) (.cons (.inl rfl) (.cons (.inr ⟨by decide, by decide⟩) (.cons (.inl rfl) .nil))))
  · intro v data h; cases h
  · obtain ⟨d, hd, h⟩ := parsesTo_spec (n := 60) (w := u!"มาก่า") (dict := none) (brk := [])
      (P := fun d => match PronunDAG.sylStrings d 0 with | .ok ss => decide (ss ≠ []) | _ => false) (by decide +kernel)
    cases hs : PronunDAG.sylStrings d 0 with
    | ok ss =>
      rw [hs] at h
      exact ⟨d, ss, hd, hs, of_decide_eq_true h, .inr ⟨.MID, .EK, .THO, ⟨3, ch!"่", ch!"้", by decide, by decide, rfl, rfl,
        by decide, by decide⟩, rfl, by decide, by decide⟩⟩
    | _ => rw [hs] at h; cases h

end Thpronun
