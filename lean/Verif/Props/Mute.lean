import Verif.Lemmas.Mute
import Verif.Props.Failing
import Verif.Props.Listed
import Verif.Props.Concat

/-! # Silenced letters: C82 -/

namespace Thpronun
open Res Spec DAG

variable {ct : CType} {w w' : U16Str} {look : List Nat → Option Str} {brk : List Int} {p : Parser} {d : PronunDAG}

/-- The listing of a concrete word without dictionary. -/
private theorem listing {n : Nat} {w : U16Str} {brk : List Int} {P : List SylString → Bool}
    (h : parsesTo n w none brk (fun d => match PronunDAG.sylStrings d 0 with | .ok ss => P ss | _ => false) = true) :
    ∃ d ss, parseU16 thaiCType w none brk = .ok d ∧ PronunDAG.sylStrings d 0 = .ok ss ∧ P ss = true := by
  obtain ⟨d, hd, h⟩ := parsesTo_spec h
  cases hs : PronunDAG.sylStrings d 0 with
  | ok ss => rw [hs] at h; exact ⟨d, ss, hd, hs, h⟩
  | _ => rw [hs] at h; cases h

private theorem exchange_one {u : U16Str} {c c' : Nat} {v : U16Str} {A : Nat → Prop} (hc : A c) (hc' : A c')
    (hv : v[0]? = some ch!"์") : SilentExchange A (u ++ c :: v) (u ++ c' :: v) := by
  refine ⟨by simp, fun i => ?_⟩
  by_cases hi : i = u.length
  · subst hi
    refine .inr ⟨c, c', by simp, by simp, hc, hc', ?_, ?_⟩ <;>
    · rw [List.getElem?_append_right (by omega), show u.length + 1 - u.length = 1 by omega]; exact hv
  · refine .inl ?_
    rcases Nat.lt_or_ge i u.length with h | h
    · rw [List.getElem?_append_left h, List.getElem?_append_left h]
    · rw [List.getElem?_append_right h, List.getElem?_append_right h]
      obtain ⟨n, hn⟩ : ∃ n, i - u.length = n + 1 := ⟨i - u.length - 1, by omega⟩
      rw [hn]; rfl

/-- It does matter which letter is silenced: เกรต์ is read in three ways, เกรร์ in one; and เกต์ง is read, เกอ์ง is not. -/
theorem C82_false :
    (∃ d ss d' ss', (Parser.new (fun _ => []) false).parseWord thaiCType b!"เกรต์" = .ok d ∧
      (Parser.new (fun _ => []) false).parseWord thaiCType b!"เกรร์" = .ok d' ∧
      SilentExchange (fun c => thaiCType.isCons c = true) u!"เกรต์" u!"เกรร์" ∧
      PronunDAG.sylStrings d 0 = .ok ss ∧ PronunDAG.sylStrings d' 0 = .ok ss' ∧ ¬ SameProns ss ss') ∧
    (∃ d ss d', (Parser.new (fun _ => []) false).parseWord thaiCType b!"เกต์ง" = .ok d ∧
      (Parser.new (fun _ => []) false).parseWord thaiCType b!"เกอ์ง" = .ok d' ∧
      SilentExchange (fun c => thaiCType.isCons c = true) u!"เกต์ง" u!"เกอ์ง" ∧
      PronunDAG.sylStrings d 0 = .ok ss ∧ ss ≠ [] ∧ PronunDAG.sylStrings d' 0 = .ok []) := by
  constructor
  · obtain ⟨d, ss, h1, h2, h3⟩ := listing (n := 60) (w := u!"เกรต์") (brk := []) (P := fun ss => decide (ss.length = 3))
      (by decide +kernel)
    obtain ⟨d', ss', h1', h2', h3'⟩ := listing (n := 60) (w := u!"เกรร์") (brk := []) (P := fun ss => decide (ss.length = 1))
      (by decide +kernel)
    refine ⟨d, ss, d', ss', h1, h1', exchange_one (u := u!"เกร") (by decide) (by decide) rfl, h2, h2', ?_⟩
    rintro ⟨m, k1, k2⟩
    have e1 : ss.length = 3 := of_decide_eq_true h3
    have e2 : ss'.length = 1 := of_decide_eq_true h3'
    have e3 := k1.length_eq
    have e4 := k2.length_eq
    omega
  · obtain ⟨d, ss, h1, h2, h3⟩ := listing (n := 60) (w := u!"เกต์ง") (brk := []) (P := fun ss => decide (ss ≠ []))
      (by decide +kernel)
    obtain ⟨d', ss', h1', h2', h3'⟩ := listing (n := 60) (w := u!"เกอ์ง") (brk := []) (P := fun ss => decide (ss = []))
      (by decide +kernel)
    exact ⟨d, ss, d', h1, h1', exchange_one (u := u!"เก") (by decide) (by decide) rfl, h2, of_decide_eq_true h3,
      (of_decide_eq_true h3' : ss' = []) ▸ h2'⟩

/-- None of the four letters left out below can be exchanged for ต everywhere. -/
theorem C82_each : ∀ c ∈ u!"รหอฮ", ∃ u v d ss d' ss', parseU16 thaiCType (u ++ ch!"ต" :: v) none [] = .ok d ∧
    parseU16 thaiCType (u ++ c :: v) none [] = .ok d' ∧
    SilentExchange (fun c => thaiCType.isCons c = true) (u ++ ch!"ต" :: v) (u ++ c :: v) ∧
    PronunDAG.sylStrings d 0 = .ok ss ∧ PronunDAG.sylStrings d' 0 = .ok ss' ∧ ¬ SameProns ss ss' := by
  have key : ∀ {u v : U16Str} {c a b : Nat}, a ≠ b → thaiCType.isCons c = true → v[0]? = some ch!"์" →
      parsesTo 60 (u ++ ch!"ต" :: v) none [] (fun d => match PronunDAG.sylStrings d 0 with | .ok ss => decide (ss.length = a) | _ => false) = true →
      parsesTo 60 (u ++ c :: v) none [] (fun d => match PronunDAG.sylStrings d 0 with | .ok ss => decide (ss.length = b) | _ => false) = true →
      ∃ u v d ss d' ss', parseU16 thaiCType (u ++ ch!"ต" :: v) none [] = .ok d ∧
        parseU16 thaiCType (u ++ c :: v) none [] = .ok d' ∧
        SilentExchange (fun c => thaiCType.isCons c = true) (u ++ ch!"ต" :: v) (u ++ c :: v) ∧
        PronunDAG.sylStrings d 0 = .ok ss ∧ PronunDAG.sylStrings d' 0 = .ok ss' ∧ ¬ SameProns ss ss' := by
    intro u v c a b hab hc hv h h'
    obtain ⟨d, ss, h1, h2, h3⟩ := listing h
    obtain ⟨d', ss', h1', h2', h3'⟩ := listing h'
    refine ⟨u, v, d, ss, d', ss', h1, h1', exchange_one (by decide) hc hv, h2, h2', ?_⟩
    rintro ⟨m, k1, k2⟩
    have e1 : ss.length = a := of_decide_eq_true h3
    have e2 : ss'.length = b := of_decide_eq_true h3'
    have e3 := k1.length_eq
    have e4 := k2.length_eq
    omega
  intro c hc
  obtain rfl | rfl | rfl | rfl : c = ch!"ร" ∨ c = ch!"ห" ∨ c = ch!"อ" ∨ c = ch!"ฮ" := by
    rw [show u!"รหอฮ" = [ch!"ร", ch!"ห", ch!"อ", ch!"ฮ"] from rfl] at hc
    simpa using hc
  · exact key (u := u!"เกร") (v := u!"์") (a := 3) (b := 1) (by decide) (by decide) rfl (by decide +kernel) (by decide +kernel)
  · exact key (u := u!"เพฤ") (v := u!"์") (a := 1) (b := 0) (by decide) (by decide) rfl (by decide +kernel) (by decide +kernel)
  · exact key (u := u!"เก") (v := u!"์ง") (a := 1) (b := 0) (by decide) (by decide) rfl (by decide +kernel) (by decide +kernel)
  · exact key (u := u!"เพฤ") (v := u!"์") (a := 1) (b := 0) (by decide) (by decide) rfl (by decide +kernel) (by decide +kernel)

/-- The rules read the two texts alike if the silenced letters exchanged can be final consonants and are not ร. -/
theorem C82_readings_partial (hct : ct.Ok) (X : SilentExchange (Mutable ct) w w')
    (hl : ∀ p q, p < q → q ≤ w.length → look (piece w p q) = look (piece w' p q))
    (hx : ∀ x data, look x = some data → ¬ BeginsSilent x) (hb : ∀ b : Nat, (b : Int) ∈ brk → w[b]? ≠ some ch!"์")
    (es : List (Entry Syl)) : RuleReading ct w look brk es ↔ RuleReading ct w' look brk es :=
  ⟨muReading hct hb hx X hl, muReading hct (fun b h h' => hb b h (Muted.keep (Muted.symm X) (lit_fixed (by decide)) h')) hx
    (Muted.symm X) fun p q h1 h2 => (hl p q h1 (X.1 ▸ h2)).symm⟩

/-- Two texts that differ in silenced letters only are both parsed or both not, and have the same pronunciations, if these
letters can be final consonants and are not ร, the dictionary finds the same words in both and has no word that begins
with a silenced letter, and no word break stands before thanthakhat. (Missing: ร, ห, อ and ฮ, see `C82_each`.) -/
theorem C82_partial (hct : ct.Ok) {word word' : Str} (hw : fromBytes word = .ok w) (hw' : fromBytes word' = .ok w')
    (X : SilentExchange (Mutable ct) w w') (hd : Holds p.exceptDict look) (hg : GoodLook look)
    (hl : ∀ p q, p < q → q ≤ w.length → look (piece w p q) = look (piece w' p q))
    (hx : ∀ x data, look x = some data → ¬ BeginsSilent x)
    (hbrk : findBreaks w' p.thBrk = findBreaks w p.thBrk) (hb : ∀ b ∈ findBreaks w p.thBrk, b ≤ w.length)
    (hb' : ∀ b : Nat, (b : Int) ∈ findBreaks w p.thBrk → w[b]? ≠ some ch!"์") (h : p.parseWord ct word = .ok d) :
    ∃ d' ss ss', p.parseWord ct word' = .ok d' ∧ PronunDAG.sylStrings d 0 = .ok ss ∧ PronunDAG.sylStrings d' 0 = .ok ss' ∧
      SameProns ss ss' := by
  have hr : Readable look := fun x data hx => (hg x data hx).imp fun _ h => h.1
  have hl' : ∀ p q, p < q → q ≤ w'.length → look (piece w' p q) = look (piece w p q) :=
    fun p q h1 h2 => (hl p q h1 (X.1 ▸ h2)).symm
  have hb2 : ∀ b : Nat, (b : Int) ∈ findBreaks w p.thBrk → w'[b]? ≠ some ch!"์" :=
    fun b h h' => hb' b h (Muted.keep (Muted.symm X) (lit_fixed (by decide)) h')
  rw [C37_word p word w hw] at h
  rw [C37_word p word' w' hw', hbrk]
  obtain ⟨d', h'⟩ : ∃ d', parseU16 ct w' p.exceptDict (findBreaks w p.thBrk) = .ok d' := by
    have k := C37_exact hct w p.exceptDict _ look hd hr hb
    have k' := C37_exact hct w' p.exceptDict (findBreaks w p.thBrk) look hd hr (by rw [← X.1]; exact hb)
    rcases k'.1 with k1 | k1
    · exact k1
    · obtain ⟨c, hc⟩ := k'.2.mp k1
      rw [k.2.mpr ⟨c, muDeadEnd hct hb2 hx (Muted.symm X) hl' hc⟩] at h
      cases h
  rw [h']
  by_cases hne : w = []
  · subst hne
    obtain rfl : w' = [] := List.eq_nil_of_length_eq_zero X.1.symm
    rw [h] at h'
    cases h'
    obtain ⟨ss, hs, -⟩ := C38_listing hct hw hd hg (by rw [C37_word p word [] hw]; exact h)
    exact ⟨d, ss, ss, rfl, hs, hs, SameProns.refl ss⟩
  · have hne' : w' ≠ [] := fun e => hne (List.eq_nil_of_length_eq_zero (by rw [X.1, e]; rfl))
    have hE : ReadEdge ct w look (findBreaks w p.thBrk) = ReadEdge ct w' look (findBreaks w p.thBrk) := by
      funext a b x
      unfold ReadEdge
      simp only [C82_readings_partial hct X hl hx hb']
    obtain ⟨ss, a1, a2, a3, a4⟩ := listing_routes hct hd hg hne h
    obtain ⟨ss', b1, b2, b3, b4⟩ := listing_routes hct hd hg hne' h'
    rw [hE, X.1] at a2 a3
    refine ⟨d', ss, ss', rfl, a1, b1, matching (R := SamePron) SamePron.symm SamePron.trans _ _ a4 b4 (fun s hs => ?_) fun s hs => a3 s (b2 s hs)⟩
    obtain ⟨s', k1, k2⟩ := b3 s (a2 s hs)
    exact ⟨s', k1, SamePron.symm k2⟩

/-- The hypotheses are met: จันทน์ and จันทส์. -/
example : SilentExchange (Mutable thaiCType) u!"จันทน์" u!"จันทส์" ∧ (Parser.new (fun _ => []) false).exceptDict = none ∧
    Holds none (fun _ => none) ∧ GoodLook (fun _ => none) ∧
    ∃ d ss, parseU16 thaiCType u!"จันทน์" none [] = .ok d ∧ PronunDAG.sylStrings d 0 = .ok ss ∧ ss ≠ [] := by
  refine ⟨exchange_one (u := u!"จันท") ⟨by decide, by decide, .KON, by decide, by decide⟩
    ⟨by decide, by decide, .KOT, by decide, by decide⟩ rfl, rfl, holds_none, ?_, ?_⟩
  · intro v data h; cases h
  · obtain ⟨d, ss, h1, h2, h3⟩ := listing (n := 60) (w := u!"จันทน์") (brk := []) (P := fun ss => decide (ss ≠ []))
      (by decide +kernel)
    exact ⟨d, ss, h1, h2, of_decide_eq_true h3⟩

end Thpronun
