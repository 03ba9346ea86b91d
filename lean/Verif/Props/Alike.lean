import Verif.Lemmas.Alike
import Verif.Props.Split
import Verif.Props.Ordinary

/-! # Property C72: different syllables are written differently -/

namespace Thpronun
open Res Spec DAG

/-- Thai texts are the same exactly for syllables that `asWritten` brings together. -/
theorem C72_thai (s s' : Syl) (h : ValidSyl s) (h' : ValidSyl s') :
    thaiSyl s = thaiSyl s' ↔ ceq (asWritten s) (asWritten s') = true := by
  rw [C28_exact s h, C28_exact s' h', Res.ok.injEq]
  refine ⟨fun he => respelled_alike s s' h h' (enc8_respelled_inj s s' h h' he), fun he => ?_⟩
  obtain ⟨e0, e⟩ := (Syl.eq_iff _ _).mp he
  obtain ⟨e1, e2, e3, e4, e5⟩ := e (by simp [Syl.isLiteral, show (asWritten s).literal = s.literal from rfl, h.literal])
  rw [← respelled_asWritten s h, ← respelled_asWritten s' h']
  unfold respelled spelledDead spelledShort
  rw [e1, e2, e3, e4, e5]

/-- `asWritten` gives a valid syllable with the same Thai text. -/
theorem C72_thai_same (s : Syl) (h : ValidSyl s) : ValidSyl (asWritten s) ∧ thaiSyl (asWritten s) = thaiSyl s := by
  refine ⟨asWritten_valid s h, ?_⟩
  rw [C28_exact s h, C28_exact _ (asWritten_valid s h), respelled_asWritten s h]

/-- Roman texts are the same exactly for syllables that `asRomanized` brings together. -/
theorem C72_roman (s s' : Syl) (h : ValidSyl s) (h' : ValidSyl s') :
    romanSyl s = romanSyl s' ↔ ceq (asRomanized s) (asRomanized s') = true := by
  refine ⟨roman_alike s s' h h', fun he => ?_⟩
  obtain ⟨e0, e⟩ := (Syl.eq_iff _ _).mp he
  obtain ⟨e1, e2, e3, e4, e5⟩ := e (by simp [Syl.isLiteral, show (asRomanized s).literal = s.literal from rfl, h.literal])
  rw [← roman_asRomanized s h, ← roman_asRomanized s' h', roman_parts _ (asRomanized_valid s h),
    roman_parts _ (asRomanized_valid s' h'), e1, e2, e3, e4]

/-- `asRomanized` gives a valid syllable with the same Roman text. -/
theorem C72_roman_same (s : Syl) (h : ValidSyl s) : ValidSyl (asRomanized s) ∧ romanSyl (asRomanized s) = romanSyl s :=
  ⟨asRomanized_valid s h, roman_asRomanized s h⟩

private def sy (i : InitConsSound) (c v : Int) (e : EndConsClass) (t : Tone) : Syl := ⟨i, c, v, e, t, [], 0⟩

/-- Different syllables with the same Thai text, one pair for each reason: the even tone of a dead syllable (กัก); the
length of ia before a final (เกียน); the length of e under a tone mark (เก่น); ee and oe before y (เกย); a cluster of ห
(หฺรา). -/
theorem C72_thai_false : ∀ p ∈ [(sy .KA SC.NONE VW.A .KOK .SAMAN, sy .KA SC.NONE VW.A .KOK .EK, u!"กัก"),
      (sy .KA SC.NONE VW.IA .KON .SAMAN, sy .KA SC.NONE VW.IAA .KON .SAMAN, u!"เกียน"),
      (sy .KA SC.NONE VW.E .KON .EK, sy .KA SC.NONE VW.EE .KON .EK, u!"เก่น"),
      (sy .KA SC.NONE VW.EE .KOEY .SAMAN, sy .KA SC.NONE VW.OEE .KOEY .SAMAN, u!"เกย"),
      (sy .HA SC.RA VW.AA .NONE .CHATTAWA, sy .RA SC.NONE VW.AA .NONE .CHATTAWA, u!"หฺรา")],
    ValidSyl p.1 ∧ ValidSyl p.2.1 ∧ ceq p.1 p.2.1 = false ∧ thaiSyl p.1 = .ok (enc8 p.2.2) ∧
      thaiSyl p.2.1 = .ok (enc8 p.2.2) := by decide +kernel

/-- Different syllables with the same Roman text: the tone (ka), the length of the vowel (kan), initials
with one romanization (cha). -/
theorem C72_roman_false : ∀ p ∈ [(sy .KA SC.NONE VW.AA .NONE .SAMAN, sy .KA SC.NONE VW.AA .NONE .EK, b!"ka"),
      (sy .KA SC.NONE VW.A .KON .SAMAN, sy .KA SC.NONE VW.AA .KON .SAMAN, b!"kan"),
      (sy .JA SC.NONE VW.AA .NONE .SAMAN, sy .CHA SC.NONE VW.AA .NONE .SAMAN, b!"cha")],
    ValidSyl p.1 ∧ ValidSyl p.2.1 ∧ ceq p.1 p.2.1 = false ∧ romanSyl p.1 = .ok p.2.2 ∧
      romanSyl p.2.1 = .ok p.2.2 := by decide +kernel

/-- Syllables that can be respelled have different Thai texts. Missing for the full claim: the other valid syllables, for
which it is false (`C72_thai_false`); `C72_thai` says what holds for all. -/
theorem C72_thai_partial (s s' : Syl) (h : ValidSyl s) (h' : ValidSyl s') (hr : Respellable s) (hr' : Respellable s')
    (he : thaiSyl s = thaiSyl s') : ceq s s' = true := by
  have := (C72_thai s s' h h').mp he
  rwa [asWritten_respellable s h hr, asWritten_respellable s' h' hr'] at this

example : ∀ s ∈ [sy .KA SC.NONE VW.EE .KON .EK, sy .RA SC.NONE VW.AA .NONE .CHATTAWA, sy .KA SC.NONE VW.OEE .KOEY .SAMAN],
    ValidSyl s ∧ Respellable s := by decide +kernel

/-- The syllables written like one that can be respelled are those that `asWritten` brings to it. -/
theorem C72_thai_one (s : Syl) (h : ValidSyl s) (hr : Respellable s) (s' : Syl) (h' : ValidSyl s') :
    thaiSyl s' = thaiSyl s ↔ ceq (asWritten s') s = true := by
  rw [C72_thai s' s h' h, asWritten_respellable s h hr]

private theorem forall_of_map {R : Syl → Syl → Prop} {f : Syl → Res Str} : ∀ {l l' : List Syl}, l.map f = l'.map f →
    (∀ s ∈ l, ∀ s' ∈ l', f s = f s' → R s s') → List.Forall₂ R l l'
  | [], [], _, _ => .nil
  | [], _ :: _, h, _ => by simp at h
  | _ :: _, [], h, _ => by simp at h
  | a :: l, b :: l', h, hr => by
    simp only [List.map_cons, List.cons.injEq] at h
    exact .cons (hr a (by simp) b (by simp) h.1)
      (forall_of_map h.2 fun s hs s' hs' => hr s (by simp [hs]) s' (by simp [hs']))

/-- The Thai line of a pronunciation whose syllables can be respelled determines the pronunciation. -/
theorem C72_line (l l' : SylString) (hl : ∀ s ∈ l, ValidSyl s ∧ Respellable s) (hl' : ∀ s ∈ l', ValidSyl s ∧ Respellable s)
    (he : delimStr thaiSyl ch!"-" l = delimStr thaiSyl ch!"-" l') : ceq l l' = true := by
  have nb : ∀ l : SylString, (∀ s ∈ l, ValidSyl s ∧ Respellable s) → ∀ s ∈ l, ¬ IsBlank s := fun l hl s hs hb =>
    (hl s hs).1.iCons1 hb.2.1
  have e := C71_delim thaiSyl ch!"-" (.inr (.inr rfl)) l l' (fun s hs => .inl (hl s hs).1) (fun s hs => .inl (hl' s hs).1) he
  rw [groups_plain (nb l hl), groups_plain (nb l' hl')] at e
  simp only [List.map_cons, List.map_nil, List.cons.injEq, and_true] at e
  exact (SylString.eq_iff l l').mpr (forall_of_map e fun s hs s' hs' h =>
    C72_thai_partial s s' (hl s hs).1 (hl' s' hs').1 (hl s hs).2 (hl' s' hs').2 h)

/-- The Roman line of a pronunciation, without the neighbours that it runs together, determines its syllables up to what
romanization leaves out. -/
theorem C72_roman_line (cap : Bool) (l l' : SylString) (h0 : l ≠ []) (h0' : l' ≠ []) (hl : ∀ s ∈ l, ValidSyl s)
    (hl' : ∀ s ∈ l', ValidSyl s) (hn : Neighbours (fun a b => ¬ Blurred a b) l)
    (hn' : Neighbours (fun a b => ¬ Blurred a b) l') (he : romanStr cap l = romanStr cap l') :
    ceq (l.map asRomanized) (l'.map asRomanized) = true := by
  refine (SylString.eq_iff _ _).mpr (List.forall₂_map_left_iff.mpr (List.forall₂_map_right_iff.mpr ?_))
  exact forall_of_map (C71_roman_partial cap l l' h0 h0' hl hl' hn hn' he) fun s hs s' hs' h =>
    (C72_roman s s' (hl s hs) (hl' s' hs')).mp h

private theorem listed_valid {ct : CType} {w : U16Str} {look : List Nat → Option Str} {p : Parser} {word : Str}
    {d : PronunDAG} {l : List (List Syl)} (hct : ct.Ok) (hw : fromBytes word = .ok w) (hd : Holds p.exceptDict look)
    (hg : GoodLook look) (h : p.parseWord ct word = .ok d) (hl : PronunDAG.sylStrings d 0 = .ok l) {ss : List Syl}
    (hs : ss ∈ l) {s : Syl} (hsm : s ∈ ss) (hlit : s.literal = []) : ValidSyl s := by
  obtain ⟨hbu, hac⟩ := C38_acyclic hct hw hd hg h
  obtain ⟨ps, e1, -, e3⟩ := C15_listing d hbu hac
  rw [hl] at e1
  cases e1
  obtain ⟨r, hr, rfl⟩ := List.mem_map.mp hs
  obtain ⟨e, he, rfl⟩ := List.mem_map.mp hsm
  exact (C39_labels hct hw hd hg h e (((e3 r).mp hr).mem he)).1.resolve_right fun h => h.1 hlit

/-- Pronunciations listed for ordinary words, the same or two
different ones (with dictionaries whose readings can be respelled), are the same if their Thai lines are. -/
theorem C72_word {ct ct' : CType} {w w' : U16Str} {look look' : List Nat → Option Str} {p p' : Parser} {word word' : Str}
    {d d' : PronunDAG} {l l' : List (List Syl)}
    (hct : ct.Ok) (hw : fromBytes word = .ok w) (hd : Holds p.exceptDict look) (hg : GoodLook look)
    (h : p.parseWord ct word = .ok d) (hl : PronunDAG.sylStrings d 0 = .ok l) (hord : Ordinary ct w)
    (hlook : ∀ q m data strs, look (piece w q m) = some data → DataIs data strs → ∀ str ∈ strs, ∀ s ∈ str, Respellable s)
    (hct' : ct'.Ok) (hw' : fromBytes word' = .ok w') (hd' : Holds p'.exceptDict look') (hg' : GoodLook look')
    (h' : p'.parseWord ct' word' = .ok d') (hl' : PronunDAG.sylStrings d' 0 = .ok l') (hord' : Ordinary ct' w')
    (hlook' : ∀ q m data strs, look' (piece w' q m) = some data → DataIs data strs → ∀ str ∈ strs, ∀ s ∈ str, Respellable s)
    (ss ss' : List Syl) (hs : ss ∈ l) (hs' : ss' ∈ l') (hlit : ∀ s ∈ ss, s.literal = []) (hlit' : ∀ s ∈ ss', s.literal = [])
    (he : delimStr thaiSyl ch!"-" ss = delimStr thaiSyl ch!"-" ss') : ceq ss ss' = true := by
  refine C72_line ss ss' (fun s hsm => ⟨?_, C68_respellable hct hw hd hg h hl hord hlook ss hs s hsm (hlit s hsm)⟩)
    (fun s hsm => ⟨?_, C68_respellable hct' hw' hd' hg' h' hl' hord' hlook' ss' hs' s hsm (hlit' s hsm)⟩) he
  · exact listed_valid hct hw hd hg h hl hs hsm (hlit s hsm)
  · exact listed_valid hct' hw' hd' hg' h' hl' hs' hsm (hlit' s hsm)

/-- "เลย" and "โรงเรียน" are ordinary words. -/
example : Ordinary thaiCType u!"เลย" ∧ Ordinary thaiCType u!"โรงเรียน" :=
  ⟨ordinary_of (by decide +kernel), ordinary_of (by decide +kernel)⟩

end Thpronun
