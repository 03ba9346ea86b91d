import Verif.Lemmas.AiVowel
import Verif.Props.Failing
import Verif.Props.Listed
import Verif.Props.Concat

/-! # ใ and ไ: C91 -/

namespace Thpronun
open Res Spec DAG

variable {ct : CType} {w w' : U16Str} {look : List Nat → Option Str} {brk : List Int} {p : Parser} {d d' : PronunDAG}

/-- How many pronunciations a word has without dictionary, if it is within reach. -/
private def countOf (w : U16Str) : Option Nat :=
  match parseU16Fuel thaiCType w 60 none [] with
  | .ok d => match PronunDAG.sylStrings d 0 with
    | .ok ss => some ss.length
    | _ => none
  | _ => none

private theorem countOf_spec {w : U16Str} {n : Nat} (h : countOf w = some n) :
    ∃ d ss, parseU16 thaiCType w none [] = .ok d ∧ PronunDAG.sylStrings d 0 = .ok ss ∧ ss.length = n := by
  unfold countOf at h
  cases hr : parseU16Fuel thaiCType w 60 none [] with
  | ok d =>
    rw [hr] at h
    dsimp only at h
    cases hs : PronunDAG.sylStrings d 0 with
    | ok s => rw [hs] at h; cases h; exact ⟨d, s, by rw [parseU16_fuel (n := 60) (by rw [hr]; simp), hr], hs, rfl⟩
    | _ => rw [hs] at h; cases h
  | _ => rw [hr] at h; cases h

private theorem aiExchange_one {u v : U16Str} {c c' : Nat} (h : c ∈ aiSigns) (h' : c' ∈ aiSigns) :
    AiExchange (u ++ c :: v) (u ++ c' :: v) := by
  refine ⟨by simp, fun i => ?_⟩
  by_cases hi : i = u.length
  · subst hi
    exact .inr ⟨c, h, c', h', by simp, by simp⟩
  · refine .inl ?_
    rcases Nat.lt_or_ge i u.length with h | h
    · rw [List.getElem?_append_left h, List.getElem?_append_left h]
    · rw [List.getElem?_append_right h, List.getElem?_append_right h]
      obtain ⟨n, hn⟩ : ∃ n, i - u.length = n + 1 := ⟨i - u.length - 1, by omega⟩
      rw [hn]; rfl

theorem aiClassed_thai : AiClassed thaiCType := by unfold AiClassed; decide

/-- It does matter which of the two signs is written: ไทย is read in two ways, ใทย in one. -/
theorem C91_false : ∃ d ss d' ss', (Parser.new (fun _ => []) false).parseWord thaiCType b!"ไทย" = .ok d ∧
    (Parser.new (fun _ => []) false).parseWord thaiCType b!"ใทย" = .ok d' ∧ AiExchange u!"ไทย" u!"ใทย" ∧
    PronunDAG.sylStrings d 0 = .ok ss ∧ PronunDAG.sylStrings d' 0 = .ok ss' ∧ ss.length = 2 ∧ ss'.length = 1 := by
  obtain ⟨d, ss, h1, h2, h3⟩ := countOf_spec (w := u!"ไทย") (n := 2) (by decide +kernel)
  obtain ⟨d', ss', h1', h2', h3'⟩ := countOf_spec (w := u!"ใทย") (n := 1) (by decide +kernel)
  exact ⟨d, ss, d', ss', h1, h1', aiExchange_one (u := []) (by decide) (by decide), h2, h2', h3, h3'⟩

/-- Each of the three distances of ย from the sign is needed. -/
theorem C91_each : ∀ k, 2 ≤ k → k ≤ 4 → ∃ u d ss d' ss', (∀ i : Nat, (ch!"ไ" :: u)[i]? = some ch!"ย" ↔ i = k) ∧
    parseU16 thaiCType (ch!"ไ" :: u) none [] = .ok d ∧ parseU16 thaiCType (ch!"ใ" :: u) none [] = .ok d' ∧
    PronunDAG.sylStrings d 0 = .ok ss ∧ PronunDAG.sylStrings d' 0 = .ok ss' ∧ ss.length ≠ ss'.length := by
  have key : ∀ {k : Nat} {u : U16Str} {m n : Nat}, m ≠ n → (∀ i : Nat, (ch!"ไ" :: u)[i]? = some ch!"ย" ↔ i = k) →
      countOf (ch!"ไ" :: u) = some m → countOf (ch!"ใ" :: u) = some n →
      ∃ u d ss d' ss', (∀ i : Nat, (ch!"ไ" :: u)[i]? = some ch!"ย" ↔ i = k) ∧
      parseU16 thaiCType (ch!"ไ" :: u) none [] = .ok d ∧ parseU16 thaiCType (ch!"ใ" :: u) none [] = .ok d' ∧
      PronunDAG.sylStrings d 0 = .ok ss ∧ PronunDAG.sylStrings d' 0 = .ok ss' ∧ ss.length ≠ ss'.length := by
    intro k u m n hmn hk h h'
    obtain ⟨d, ss, h1, h2, h3⟩ := countOf_spec h
    obtain ⟨d', ss', h1', h2', h3'⟩ := countOf_spec h'
    exact ⟨u, d, ss, d', ss', hk, h1, h1', h2, h2', by rw [h3, h3']; exact hmn⟩
  have at_ : ∀ {u : U16Str} {k : Nat}, (∀ i < u.length, u[i]? = some ch!"ย" ↔ i = k) → k < u.length →
      ∀ i : Nat, u[i]? = some ch!"ย" ↔ i = k := by
    intro u k h hk i
    rcases Nat.lt_or_ge i u.length with hi | hi
    · exact h i hi
    · rw [List.getElem?_eq_none hi]
      exact ⟨nofun, fun e => absurd hk (by omega)⟩
  intro k h1 h2
  obtain rfl | rfl | rfl : k = 2 ∨ k = 3 ∨ k = 4 := by omega
  · exact key (u := u!"ทย") (m := 2) (n := 1) (by decide) (at_ (by decide) (by decide)) (by decide +kernel) (by decide +kernel)
  · exact key (u := u!"กลย") (m := 2) (n := 0) (by decide) (at_ (by decide) (by decide)) (by decide +kernel) (by decide +kernel)
  · exact key (u := u!"กล่ย") (m := 2) (n := 0) (by decide) (at_ (by decide) (by decide)) (by decide +kernel) (by decide +kernel)

/-- By the rules, every reading of a text is one of the text with ไ for ใ, and with ใ for ไ where no silent ย can follow. -/
theorem C91_readings_partial (hct : ct.Ok) (hcl : AiClassed ct) (X : AiExchange w w') (S : NoSilentYo w w')
    (hl : ∀ p q, p < q → q ≤ w.length → look (piece w p q) = look (piece w' p q)) (es : List (Entry Syl))
    (h : RuleReading ct w look brk es) : RuleReading ct w' look brk es :=
  aiReading ⟨hct, hcl, X⟩ S hl h

/-- Every pronunciation of a text is one of the text with ไ for ใ (then `NoSilentYo w w'` is no condition at all). -/
theorem C91_more (hct : ct.Ok) (hcl : AiClassed ct) {word word' : Str} (hw : fromBytes word = .ok w)
    (hw' : fromBytes word' = .ok w') (X : AiExchange w w') (S : NoSilentYo w w') (hd : Holds p.exceptDict look) (hg : GoodLook look)
    (hl : ∀ p q, p < q → q ≤ w.length → look (piece w p q) = look (piece w' p q))
    (hbrk : findBreaks w' p.thBrk = findBreaks w p.thBrk)
    (h : p.parseWord ct word = .ok d) (h' : p.parseWord ct word' = .ok d') :
    ∃ ss ss', PronunDAG.sylStrings d 0 = .ok ss ∧ PronunDAG.sylStrings d' 0 = .ok ss' ∧
      ∀ s ∈ ss, ∃ s' ∈ ss', SamePron s s' := by
  rw [C37_word p word w hw] at h
  rw [C37_word p word' w' hw', hbrk] at h'
  by_cases hne : w = []
  · subst hne
    obtain rfl : w' = [] := List.eq_nil_of_length_eq_zero X.1.symm
    rw [h] at h'
    cases h'
    obtain ⟨ss, hs, -⟩ := C38_listing hct hw hd hg (by rw [C37_word p word [] hw]; exact h)
    exact ⟨ss, ss, hs, hs, fun s h => ⟨s, h, SamePron.refl s⟩⟩
  · have hne' : w' ≠ [] := fun e => hne (List.eq_nil_of_length_eq_zero (by rw [X.1, e]; rfl))
    have hE : ∀ a b x, ReadEdge ct w look (findBreaks w p.thBrk) a b x → ReadEdge ct w' look (findBreaks w p.thBrk) a b x :=
      fun a b x ⟨es, h1, h2⟩ => ⟨es, C91_readings_partial hct hcl X S hl es h1, h2⟩
    obtain ⟨ss, a1, a2, a3, a4⟩ := listing_routes hct hd hg hne h
    obtain ⟨ss', b1, b2, b3, b4⟩ := listing_routes hct hd hg hne' h'
    refine ⟨ss, ss', a1, b1, fun s hs => ?_⟩
    obtain ⟨s', k1, k2⟩ := b3 s (X.1 ▸ Route.mono hE (a2 s hs))
    exact ⟨s', k1, SamePron.symm k2⟩

/-- Two texts that differ in the signs ใ and ไ only are both parsed or both not, and have the same pronunciations, if no ย
follows the exchanged signs two to four characters on, the dictionary finds the same words in both, and they have the same
word breaks. (Missing: the silent ย after ไ, see `C91_each`.) -/
theorem C91_partial (hct : ct.Ok) (hcl : AiClassed ct) {word word' : Str} (hw : fromBytes word = .ok w)
    (hw' : fromBytes word' = .ok w') (X : AiExchange w w') (S : NoSilentYo w w') (S' : NoSilentYo w' w)
    (hd : Holds p.exceptDict look) (hg : GoodLook look)
    (hl : ∀ p q, p < q → q ≤ w.length → look (piece w p q) = look (piece w' p q))
    (hbrk : findBreaks w' p.thBrk = findBreaks w p.thBrk) (hb : ∀ b ∈ findBreaks w p.thBrk, b ≤ w.length)
    (h : p.parseWord ct word = .ok d) :
    ∃ d' ss ss', p.parseWord ct word' = .ok d' ∧ PronunDAG.sylStrings d 0 = .ok ss ∧ PronunDAG.sylStrings d' 0 = .ok ss' ∧
      SameProns ss ss' := by
  have hr : Readable look := fun x data hx => (hg x data hx).imp fun _ h => h.1
  have X0 : AiTwin ct w w' := ⟨hct, hcl, X⟩
  have hl' : ∀ p q, p < q → q ≤ w'.length → look (piece w' p q) = look (piece w p q) :=
    fun p q h1 h2 => (hl p q h1 (X.1 ▸ h2)).symm
  rw [C37_word p word w hw] at h
  rw [C37_word p word' w' hw', hbrk]
  obtain ⟨d', h'⟩ : ∃ d', parseU16 ct w' p.exceptDict (findBreaks w p.thBrk) = .ok d' := by
    have k := C37_exact hct w p.exceptDict _ look hd hr hb
    have k' := C37_exact hct w' p.exceptDict (findBreaks w p.thBrk) look hd hr (by rw [← X.1]; exact hb)
    rcases k'.1 with k1 | k1
    · exact k1
    · obtain ⟨c, hc⟩ := k'.2.mp k1
      rw [k.2.mpr ⟨c, aiDeadEnd X0.symm S' hl' hc⟩] at h
      cases h
  rw [h']
  by_cases hne : w = []
  · subst hne
    obtain rfl : w' = [] := List.eq_nil_of_length_eq_zero X.1.symm
    rw [h] at h'
    cases h'
    obtain ⟨ss, hs, -⟩ := C38_listing hct hw hd hg (by rw [C37_word p word [] hw]; exact h)
    exact ⟨d, ss, ss, rfl, hs, hs, SameProns.refl ss⟩
  · have hne' : w' ≠ [] := fun e => hne (List.eq_nil_of_length_eq_zero (by rw [X.1, e]; rfl))
    have hE : ReadEdge ct w look (findBreaks w p.thBrk) = ReadEdge ct w' look (findBreaks w p.thBrk) := by
      funext a b x
      unfold ReadEdge
      have : ∀ es, RuleReading ct w look (findBreaks w p.thBrk) es ↔ RuleReading ct w' look (findBreaks w p.thBrk) es :=
        fun es => ⟨aiReading X0 S hl, aiReading X0.symm S' hl'⟩
      simp only [this]
    obtain ⟨ss, a1, a2, a3, a4⟩ := listing_routes hct hd hg hne h
    obtain ⟨ss', b1, b2, b3, b4⟩ := listing_routes hct hd hg hne' h'
    rw [hE, X.1] at a2 a3
    refine ⟨d', ss, ss', rfl, a1, b1, matching (R := SamePron) SamePron.symm SamePron.trans _ _ a4 b4 (fun s hs => ?_) fun s hs => a3 s (b2 s hs)⟩
    obtain ⟨s', k1, k2⟩ := b3 s (a2 s hs)
    exact ⟨s', k1, SamePron.symm k2⟩

/-- The hypotheses are met: ใจ and ไจ; ใทย and ไทย for `C91_more`. -/
example : thaiCType.Ok ∧ AiClassed thaiCType ∧
    (AiExchange u!"ใจดี" u!"ไจดี" ∧ NoSilentYo u!"ใจดี" u!"ไจดี" ∧ NoSilentYo u!"ไจดี" u!"ใจดี") ∧
    (AiExchange u!"ใทย" u!"ไทย" ∧ NoSilentYo u!"ใทย" u!"ไทย") ∧
    (Parser.new (fun _ => []) false).exceptDict = none ∧ Holds none (fun _ => none) ∧ GoodLook (fun _ => none) ∧
    ∃ d ss, parseU16 thaiCType u!"ใจดี" none [] = .ok d ∧ PronunDAG.sylStrings d 0 = .ok ss ∧ ss.length = 1 := by
  have none_ : ∀ {w w' : U16Str}, (∀ i < w.length, w[i]? ≠ some ch!"ไ") → NoSilentYo w w' := by
    intro w w' h i hi
    exact absurd hi (h i (List.getElem?_eq_some_iff.mp hi).1)
  refine ⟨thaiCType_ok, aiClassed_thai, ⟨aiExchange_one (u := []) (by decide) (by decide), none_ (by decide), ?_⟩,
    ⟨aiExchange_one (u := []) (by decide) (by decide), none_ (by decide)⟩, rfl, holds_none, (fun v data h => by cases h),
    countOf_spec (by decide +kernel)⟩
  intro i _ _ k _ _
  rcases Nat.lt_or_ge k 4 with hk | hk
  · exact (by decide : ∀ k < 4, u!"ไจดี"[k]? ≠ some ch!"ย") k hk
  · rw [List.getElem?_eq_none hk]; simp

end Thpronun
