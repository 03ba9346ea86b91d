import Verif.Lemmas.Spelled
import Verif.Lemmas.ParserInv
import Verif.Lemmas.ParserLoop
import Verif.Spec.Reading
import Verif.Lemmas.Desc
import Verif.Props.Abbr

/-! # The readings of `Spec.Parser` are those by the rules -/

namespace Thpronun
open Res Spec

variable {ct : CType} {w : U16Str} {brk : List Int} {look : List Nat → Option Str}

theorem textAt_iff {i : Nat} : TextAt ct w i ↔ Token ct w i := by
  unfold TextAt Token
  refine exists_congr fun c => and_congr_right fun _ => ?_
  simp only [isThaiTokenChar, isWordChar, Bool.or_eq_true, decide_eq_true_eq, List.mem_cons, List.not_mem_nil, or_false]
  constructor
  · rintro (h | h | h | rfl | rfl | rfl)
    · exact .inr (.inl (.inl (.inl (.inl h))))
    · exact .inr (.inl (.inl (.inl (.inr h))))
    · exact .inr (.inl (.inl (.inr h)))
    · exact .inr (.inl (.inr rfl))
    · exact .inr (.inr rfl)
    · exact .inl rfl
  · rintro (rfl | (((h | h) | h) | rfl) | rfl)
    · exact .inr (.inr (.inr (.inr (.inr rfl))))
    · exact .inl h
    · exact .inr (.inl h)
    · exact .inr (.inr (.inl h))
    · exact .inr (.inr (.inr (.inl rfl)))
    · exact .inr (.inr (.inr (.inr (.inl rfl))))

theorem tokenTo_iff {p t : Nat} : TokenTo ct w brk p t ↔ IsStop ct w brk p t := by
  unfold TokenTo
  simp only [textAt_iff]
  exact ⟨fun ⟨a, b, c, d, e⟩ => ⟨a, b, d, c, e⟩, fun ⟨a, b, d, c, e⟩ => ⟨a, b, c, d, e⟩⟩

theorem otherTo_iff {p t : Nat} : OtherTo ct w p t ↔ IsGap ct w p t := by
  unfold OtherTo
  simp only [textAt_iff]
  exact ⟨fun ⟨a, b, c, d⟩ => ⟨a, b, c, d⟩, fun ⟨a, b, c, d⟩ => ⟨a, b, c, d⟩⟩

theorem wordAt_iff {p t q : Nat} {data : Str} (ht : t ≤ w.length) :
    WordAt ct w look p t q data ↔ (q, data) ∈ dictAt ct w look p t := by
  unfold WordAt dictAt prefixMatches
  rw [List.mem_filter, List.mem_filterMap]
  have hs : StartAt ct w w.length q ↔ (w[q]?).any (isSylStart ct) = true := by
    unfold StartAt At
    cases h : w[q]? with
    | none => simp
    | some c =>
      have := (List.getElem?_eq_some_iff.mp h).1
      simp [this, isSylStart]
  simp only [Bool.and_eq_true, decide_eq_true_eq, Bool.or_eq_true, hs]
  constructor
  · rintro ⟨h1, h2, h3, h4, h5⟩
    refine ⟨⟨q - p, ?_, ?_⟩, h4, h5⟩
    · rw [List.mem_range'_1]; omega
    · show Option.map _ (look (piece w p q)) = _
      rw [h3]
      simp; omega
  · rintro ⟨⟨n, h1, h2⟩, h4, h5⟩
    rw [List.mem_range'_1] at h1
    rw [Option.map_eq_some_iff] at h2
    obtain ⟨s, h2, h3⟩ := h2
    cases h3
    refine ⟨by omega, by omega, ?_, h4, h5⟩
    unfold piece
    rw [Nat.add_sub_cancel_left]; exact h2

theorem noWord_iff {p t : Nat} (ht : t ≤ w.length) :
    (∀ q data, ¬ WordAt ct w look p t q data) ↔ dictAt ct w look p t = [] := by
  simp only [wordAt_iff ht]
  rw [List.eq_nil_iff_forall_not_mem]
  exact ⟨fun h m => h m.1 m.2, fun h q data => h (q, data)⟩

theorem wordEdges_eq {p : Nat} {s : SylString} {n : Int} :
    wordEdges p n s = pathEdges n (SylString.shiftEndPos s p) := by
  have hm : ∀ e, movedEnd p e = SylString.shiftPos p e := by
    intro e
    unfold movedEnd SylString.shiftPos
    rw [Int.mul_comm]
  induction s generalizing n with
  | nil => rfl
  | cons x s ih =>
    rw [wordEdges, ih, SylString.shiftEndPos, SylString.shiftEndPos, List.map_cons, pathEdges, hm]
    rfl

theorem isLetterName_unique {c : Nat} {q : Int} {s s' : Syl} (h : IsLetterName c q s) (h' : IsLetterName c q s') :
    s = s' := by
  obtain ⟨a, b, h1, h2, rfl⟩ := h
  obtain ⟨a', b', h1', h2', rfl⟩ := h'
  have := C02_sound_conv _ _ h1
  rw [C02_sound_conv _ _ h1'] at this; cases this
  have := C02_class_conv _ _ h2
  rw [C02_class_conv _ _ h2'] at this; cases this
  rfl

theorem isNames_unique {q : Nat} {e : Int} {cs : U16Str} {a b : List (Entry Syl)} (h : IsNames q e cs a)
    (h' : IsNames q e cs b) : a = b := by
  refine List.ext_getElem (by rw [h.1, h'.1]) fun i h1 h2 => ?_
  have hi : i < cs.length := by rw [← h.1]; exact h1
  obtain ⟨k1, k2, k3⟩ := h.2 i _ _ (List.getElem?_eq_getElem hi) (List.getElem?_eq_getElem h1)
  obtain ⟨g1, g2, g3⟩ := h'.2 i _ _ (List.getElem?_eq_getElem hi) (List.getElem?_eq_getElem h2)
  have ht : a[i].target = b[i].target := by rw [k2, g2]
  rw [ht] at k3
  have hv := isLetterName_unique k3 g3
  have hk : a[i].key = b[i].key := by rw [k1, g1]
  generalize a[i] = x at *
  generalize b[i] = y at *
  cases x; cases y
  simp_all

theorem abbrNames_iff (hct : ct.Ok) {p t q : Nat} {new : List (Entry Syl)} (ha : IsAbbr ct w p t q) :
    AbbrNames w p q new ↔ abbrEdges w p q = .ok new := by
  unfold AbbrNames
  by_cases h : w[p]? = some ch!"."
  · have : abbrEdges w p q = .ok [⟨p, q, Syl.lit q u!"."⟩] := by
      unfold abbrEdges; rw [if_pos h]
    rw [this]
    simp only [h, true_and, ne_eq, not_true_eq_false, false_and, or_false, Res.ok.injEq]
    exact eq_comm
  · obtain ⟨cs, h1, -, hc, h3, new', h4, h5⟩ := abbr_names hct ha h
    have hdot : ch!"." ∉ cs := fun hm => by
      have := hct.cons _ (hc _ hm)
      omega
    rw [h4]
    simp only [h, false_and, ne_eq, not_false_eq_true, true_and, false_or, Res.ok.injEq]
    constructor
    · rintro ⟨cs', h6, h7⟩
      have : cs' = cs := by
        rcases h3 with h3 | ⟨h3, -⟩ <;> rcases h6 with h6 | ⟨h6, h8⟩
        · exact List.append_cancel_right (h6.symm.trans h3)
        · rw [← h6, h3] at h8; simp at h8
        · rw [← h3, h6] at hdot; simp at hdot
        · exact h6.symm.trans h3
      subst this
      exact isNames_unique h5 h7
    · rintro rfl
      refine ⟨cs, ?_, h5⟩
      rcases h3 with h3 | ⟨h3, -⟩
      · exact .inl h3
      · exact .inr ⟨h3, hdot⟩

theorem emitOf_edges {p : Nat} {o : Onset} {r : Rime} {e : Emit} (h : EmitOf o r e) (hv : e.p.vowel ∈ vowels) :
    e.pos = r.stop ∧ e.linked = r.linked ∧ sylEdges p e = spelledEdges p o r := by
  obtain ⟨⟨h1, h2, h3, h4⟩, rfl⟩ := h
  refine ⟨rfl, rfl, ?_⟩
  have hs : e.p.toSyl e.pos = spoken o (rimeOf e) := by
    unfold PartialSyl.toSyl spoken Syl.mk5
    simp only [ofOnset] at h2 h3 h4
    dsimp only [rimeOf]
    have : toneFromWritten e.p.iConsClass e.p.tone
        (if e.p.eConsClass = .NONE then isShortVowel e.p.vowel else isDeadEndConsClass e.p.eConsClass)
        (isShortVowel e.p.vowel) = spokenTone o.cls e.p.vowel e.p.eConsClass e.p.tone := by
      rw [h3]
      refine spokenTone_eq ?_ (isShortVowel_eq hv)
      rw [isShortVowel_eq hv]
      unfold Dead
      cases e.p.eConsClass <;> simp [isDeadEndConsClass]
    rw [this, h2, h4]
  unfold sylEdges spelledEdges
  simp only [ofOnset] at h1
  rw [h1, hs]
  rfl

/-- Steps by the rules are the steps of `Spec.Parser`. -/
theorem rule_iff (hct : ct.Ok) {c c' : Config} : Rule ct w look brk c c' ↔ Step ct w look brk c c' := by
  constructor
  · intro h
    cases h with
    | other h => exact .gap (otherTo_iff.mp h)
    | word h1 h2 h3 h4 =>
      have h1 := tokenTo_iff.mp h1
      rw [wordEdges_eq]
      exact .dict h1 ((wordAt_iff h1.le).mp h2) ((makeSylStrings_iff _ _).mpr h3) h4
    | abbr h1 h2 h3 h4 =>
      have h1 := tokenTo_iff.mp h1
      exact .abbr h1 ((noWord_iff h1.le).mp h2) h3 ((abbrNames_iff hct h3).mp h4)
    | @syl p l es t o r h1 h2 h3 h4 =>
      have h1 := tokenTo_iff.mp h1
      obtain ⟨c, hc, h4'⟩ := id h4
      have hpl : Plain ct w look p t := ⟨(noWord_iff h1.le).mp h2, fun ⟨q, h⟩ => h3 q h⟩
      rcases grammar_total hct (c := c) l h1.lt h1.le with ⟨ems, hg⟩ | ⟨-, hld, hne, hlen⟩
      · have := (satP_iff _ _).mp (grammar_spelled (t := t) (l := l) hct hc) ems hg
        obtain ⟨e, he, h⟩ := this.2 o r h4
        obtain ⟨k1, k2, k3⟩ := emitOf_edges (p := p) h (grammar_ok hct h1.lt h1.le hg e he).1.vowel
        rw [← k1, ← k2, ← k3]
        exact .syl h1 hpl hc hg he
      · exfalso
        have hld' := hct.ld c hld
        rcases h4' with ⟨h, -⟩ | ⟨h, -⟩ | ⟨-, -, ⟨_, _, _, h, -⟩, -⟩ | ⟨h, -⟩
        · have := hct.cons c h; omega
        · exact hne h
        · have := (List.getElem?_eq_some_iff.mp h).1
          omega
        · omega
    | dot h1 h2 h3 h4 =>
      have h1 := tokenTo_iff.mp h1
      exact .dot h1 ⟨(noWord_iff h1.le).mp h2, fun ⟨q, h⟩ => h3 q h⟩ h4
  · intro h
    cases h with
    | gap h => exact .other (otherTo_iff.mpr h)
    | dict h1 h2 h3 h4 =>
      rw [← wordEdges_eq]
      exact .word (tokenTo_iff.mpr h1) ((wordAt_iff h1.le).mpr h2) ((makeSylStrings_iff _ _).mp h3) h4
    | abbr h1 h2 h3 h4 =>
      exact .abbr (tokenTo_iff.mpr h1) ((noWord_iff h1.le).mpr h2) h3 ((abbrNames_iff hct h3).mpr h4)
    | @syl p l es t c ems e h1 h2 hc hg he =>
      have := (satP_iff _ _).mp (grammar_spelled (t := t) (l := l) hct hc) ems hg
      obtain ⟨o, r, h, h'⟩ := this.1 e he
      obtain ⟨k1, k2, k3⟩ := emitOf_edges (p := p) h' (grammar_ok hct h1.lt h1.le hg e he).1.vowel
      rw [k1, k2, k3]
      exact .syl (tokenTo_iff.mpr h1) ((noWord_iff h1.le).mpr h2.1) (fun q h => h2.2 ⟨q, h⟩) h
    | dot h1 h2 h4 =>
      exact .dot (tokenTo_iff.mpr h1) ((noWord_iff h1.le).mpr h2.1) (fun q h => h2.2 ⟨q, h⟩) h4

theorem ruleDeriv_iff (hct : ct.Ok) {c : Config} : RuleDeriv ct w look brk c ↔ Deriv ct w look brk c := by
  have : Rule ct w look brk = Step ct w look brk := by
    funext c c'; exact propext (rule_iff hct)
  unfold RuleDeriv Deriv
  rw [this]

theorem deadEnd_iff (hct : ct.Ok) {c : Config} : DeadEnd ct w look brk c ↔ Stuck ct w look brk c := by
  unfold DeadEnd Stuck
  rw [ruleDeriv_iff hct]
  refine and_congr_right fun _ => and_congr_right fun _ => ?_
  constructor
  · rintro ⟨⟨x, h1, h2, h3⟩, t, h4, h5⟩
    rw [tokenTo_iff] at h4
    refine ⟨t, x, h4, ⟨(noWord_iff h4.le).mp h5, ?_⟩, h1, h2, h3⟩
    have hld := hct.ld _ h2
    have hno : ¬ ct.isCons x = true := fun h => by have := hct.cons _ h; omega
    rintro ⟨e, ha⟩
    rcases ha.shape with ⟨n, -, -, hc, hdot⟩ | ⟨-, -, y, hy, hc⟩
    · cases n with
      | zero =>
        rw [Nat.add_zero, h1] at hdot
        cases hdot
        omega
      | succ n =>
        obtain ⟨y, hy, hc⟩ := hc c.pos le_rfl (by omega)
        rw [h1] at hy; cases hy
        exact hno hc
    · rw [h1] at hy; cases hy
      exact hno hc
  · rintro ⟨t, x, h4, h5, h1, h2, h3⟩
    exact ⟨⟨x, h1, h2, h3⟩, t, tokenTo_iff.mpr h4, (noWord_iff h4.le).mpr h5.1⟩

theorem ruleReading_iff (hct : ct.Ok) {es : List (Entry Syl)} :
    RuleReading ct w look brk es ↔ Reading ct w look brk es := by
  have : Rule ct w look brk = Step ct w look brk := by
    funext c c'; exact propext (rule_iff hct)
  unfold RuleReading Reading Deriv
  rw [this]

end Thpronun
