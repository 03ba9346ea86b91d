import Verif.Lemmas.RuLong
import Verif.Props.Failing
import Verif.Props.Listed
import Verif.Props.Concat

/-! # ฤๅ and ฤา: C92 -/

namespace Thpronun
open Res Spec DAG

variable {ct : CType} {w w' : U16Str} {look : List Nat → Option Str} {brk : List Int} {p : Parser}

/-- By the rules, the two texts have the same readings. -/
theorem C92_readings (hct : ct.Ok) (hcl : RuClassed ct) (X : RuExchange w w')
    (hl : ∀ p q, p < q → q ≤ w.length → look (piece w p q) = look (piece w' p q)) (es : List (Entry Syl)) :
    RuleReading ct w look brk es ↔ RuleReading ct w' look brk es :=
  have X0 : RuTwin ct w w' := ⟨hct, hcl, X⟩
  ⟨ruReading X0 hl, ruReading X0.symm fun p q h1 h2 => (hl p q h1 (X.1 ▸ h2)).symm⟩

/-- Two texts that differ only in the sign of length (ๅ or า) directly after ฤ or ฦ: either both fail with the same error, or
both are parsed and have the same pronunciations. The dictionary has to find the same words in both, and the word breaks
have to be the same. -/
theorem C92 (hct : ct.Ok) (hcl : RuClassed ct) {word word' : Str} (hw : fromBytes word = .ok w)
    (hw' : fromBytes word' = .ok w') (X : RuExchange w w') (hd : Holds p.exceptDict look) (hg : GoodLook look)
    (hl : ∀ p q, p < q → q ≤ w.length → look (piece w p q) = look (piece w' p q))
    (hbrk : findBreaks w' p.thBrk = findBreaks w p.thBrk) (hb : ∀ b ∈ findBreaks w p.thBrk, b ≤ w.length) :
    (p.parseWord ct word = .throw .outOfRange ∧ p.parseWord ct word' = .throw .outOfRange) ∨
    ∃ d d' ss ss', p.parseWord ct word = .ok d ∧ p.parseWord ct word' = .ok d' ∧ PronunDAG.sylStrings d 0 = .ok ss ∧
      PronunDAG.sylStrings d' 0 = .ok ss' ∧ SameProns ss ss' := by
  have hr : Readable look := fun x data hx => (hg x data hx).imp fun _ h => h.1
  have X0 : RuTwin ct w w' := ⟨hct, hcl, X⟩
  have hl' : ∀ p q, p < q → q ≤ w'.length → look (piece w' p q) = look (piece w p q) :=
    fun p q h1 h2 => (hl p q h1 (X.1 ▸ h2)).symm
  rw [C37_word p word w hw, C37_word p word' w' hw', hbrk]
  have k := C37_exact hct w p.exceptDict _ look hd hr hb
  have k' := C37_exact hct w' p.exceptDict (findBreaks w p.thBrk) look hd hr (by rw [← X.1]; exact hb)
  rcases k.1 with ⟨d, h⟩ | h
  · refine .inr ?_
    obtain ⟨d', h'⟩ : ∃ d', parseU16 ct w' p.exceptDict (findBreaks w p.thBrk) = .ok d' := by
      rcases k'.1 with k1 | k1
      · exact k1
      · obtain ⟨c, hc⟩ := k'.2.mp k1
        rw [k.2.mpr ⟨c, ruDeadEnd X0.symm hl' hc⟩] at h
        cases h
    rw [h, h']
    by_cases hne : w = []
    · subst hne
      obtain rfl : w' = [] := List.eq_nil_of_length_eq_zero X.1.symm
      rw [h] at h'
      cases h'
      obtain ⟨ss, hs, -⟩ := C38_listing hct hw hd hg (by rw [C37_word p word [] hw]; exact h)
      exact ⟨d, d, ss, ss, rfl, rfl, hs, hs, SameProns.refl ss⟩
    · have hne' : w' ≠ [] := fun e => hne (List.eq_nil_of_length_eq_zero (by rw [X.1, e]; rfl))
      have hE : ReadEdge ct w look (findBreaks w p.thBrk) = ReadEdge ct w' look (findBreaks w p.thBrk) := by
        funext a b x
        unfold ReadEdge
        simp only [C92_readings hct hcl X hl]
      obtain ⟨ss, a1, a2, a3, a4⟩ := listing_routes hct hd hg hne h
      obtain ⟨ss', b1, b2, b3, b4⟩ := listing_routes hct hd hg hne' h'
      rw [hE, X.1] at a2 a3
      refine ⟨d, d', ss, ss', rfl, rfl, a1, b1,
        matching (R := SamePron) SamePron.symm SamePron.trans _ _ a4 b4 (fun s hs => ?_) fun s hs => a3 s (b2 s hs)⟩
      obtain ⟨s', k1, k2⟩ := b3 s (a2 s hs)
      exact ⟨s', k1, SamePron.symm k2⟩
  · obtain ⟨c, hc⟩ := k.2.mp h
    exact .inl ⟨h, k'.2.mpr ⟨c, ruDeadEnd X0 hl hc⟩⟩

private theorem ruExchange_one {u v : U16Str} {r c c' : Nat} (hr : r ∈ u!"ฤฦ") (h : c ∈ ruTails) (h' : c' ∈ ruTails) :
    RuExchange (u ++ r :: c :: v) (u ++ r :: c' :: v) := by
  refine ⟨by simp, fun i => ?_⟩
  by_cases hi : i = u.length + 1
  · subst hi
    exact .inr ⟨c, h, c', h', by simp [List.getElem?_append_right], by simp [List.getElem?_append_right], u.length, rfl,
      r, hr, by simp⟩
  · refine .inl ?_
    rcases Nat.lt_or_ge i u.length with h | h
    · rw [List.getElem?_append_left h, List.getElem?_append_left h]
    · rw [List.getElem?_append_right h, List.getElem?_append_right h]
      rcases e : i - u.length with _ | _ | n
      · rfl
      · omega
      · rfl

theorem ruClassed_thai : RuClassed thaiCType := by unfold RuClassed; decide

/-- How many pronunciations a word has without dictionary, if it is within reach. -/
private def countRu (w : U16Str) : Option Nat :=
  match parseU16Fuel thaiCType w 60 none [] with
  | .ok d => match PronunDAG.sylStrings d 0 with
    | .ok ss => some ss.length
    | _ => none
  | _ => none

private theorem countRu_spec {w : U16Str} {n : Nat} (h : countRu w = some n) :
    ∃ d ss, parseU16 thaiCType w none [] = .ok d ∧ PronunDAG.sylStrings d 0 = .ok ss ∧ ss.length = n := by
  unfold countRu at h
  cases hr : parseU16Fuel thaiCType w 60 none [] with
  | ok d =>
    rw [hr] at h
    dsimp only at h
    cases hs : PronunDAG.sylStrings d 0 with
    | ok s => rw [hs] at h; cases h; exact ⟨d, s, by rw [parseU16_fuel (n := 60) (by rw [hr]; simp), hr], hs, rfl⟩
    | _ => rw [hs] at h; cases h
  | _ => rw [hr] at h; cases h

/-- Elsewhere the two signs are not alike: กา is read in one way, กๅ in none. -/
theorem C92_only : ∃ d ss d' ss', parseU16 thaiCType u!"กา" none [] = .ok d ∧ PronunDAG.sylStrings d 0 = .ok ss ∧
    parseU16 thaiCType u!"กๅ" none [] = .ok d' ∧ PronunDAG.sylStrings d' 0 = .ok ss' ∧ ss.length = 1 ∧ ss'.length = 0 := by
  obtain ⟨d, ss, h1, h2, h3⟩ := countRu_spec (w := u!"กา") (n := 1) (by decide +kernel)
  obtain ⟨d', ss', h1', h2', h3'⟩ := countRu_spec (w := u!"กๅ") (n := 0) (by decide +kernel)
  exact ⟨d, ss, d', ss', h1, h2, h1', h2', h3, h3'⟩

/-- The hypotheses are met: ฤๅษี and ฤาษี, which is read. -/
example : thaiCType.Ok ∧ RuClassed thaiCType ∧ RuExchange u!"ฤๅษี" u!"ฤาษี" ∧
    (Parser.new (fun _ => []) false).exceptDict = none ∧ Holds none (fun _ => none) ∧ GoodLook (fun _ => none) ∧
    ∃ d ss, parseU16 thaiCType u!"ฤๅษี" none [] = .ok d ∧ PronunDAG.sylStrings d 0 = .ok ss ∧ ss.length = 1 :=
  ⟨thaiCType_ok, ruClassed_thai, ruExchange_one (u := []) (by decide) (by decide) (by decide), rfl, holds_none,
    (fun v data h => by cases h), countRu_spec (by decide +kernel)⟩

end Thpronun
