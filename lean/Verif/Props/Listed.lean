import Verif.Lemmas.Listed

/-! # Which pronunciations are listed: C54 -/

namespace Thpronun
open Res Spec DAG

variable {ct : CType} {p : Parser} {word : Str} {w : U16Str} {look : List Nat → Option Str} {d : PronunDAG}

/-- The listed pronunciations are exactly the ways along syllables of readings, from the beginning of the text to its
end, each once. -/
theorem C54_exact (hct : ct.Ok) (hw : fromBytes word = .ok w) (hd : Holds p.exceptDict look) (hg : GoodLook look)
    (hne : w ≠ []) (h : p.parseWord ct word = .ok d) :
    ∃ ss, PronunDAG.sylStrings d 0 = .ok ss ∧
      (∀ s ∈ ss, Route (ReadEdge ct w look (findBreaks w p.thBrk)) 0 w.length s) ∧
      (∀ s, Route (ReadEdge ct w look (findBreaks w p.thBrk)) 0 w.length s → ∃ s' ∈ ss, SamePron s' s) ∧
      ss.Pairwise fun a b => ¬ SamePron a b := by
  rw [C37_word p word w hw] at h
  exact listing_routes hct hd hg hne h

/-- For a text whose readings do not mix, the listed pronunciations are exactly the readings: every one listed is a
reading, every reading is listed, and none twice. -/
theorem C54_unmixed (hct : ct.Ok) (hw : fromBytes word = .ok w) (hd : Holds p.exceptDict look) (hg : GoodLook look)
    (hne : w ≠ []) (h : p.parseWord ct word = .ok d) (hu : Unmixed ct w look (findBreaks w p.thBrk)) :
    ∃ ss, PronunDAG.sylStrings d 0 = .ok ss ∧
      (∀ s ∈ ss, ∃ es, RuleReading ct w look (findBreaks w p.thBrk) es ∧ IsPron s es) ∧
      (∀ es, RuleReading ct w look (findBreaks w p.thBrk) es → ∃ s ∈ ss, IsPron s es) ∧
      ss.Pairwise fun a b => ¬ SamePron a b := by
  obtain ⟨ss, h1, h2, -, h4⟩ := C54_exact hct hw hd hg hne h
  refine ⟨ss, h1, fun s hs => ?_, fun es hes => ?_, h4⟩
  · simpa using route_reading hct hg hu s.length s ⟨0, false, []⟩ (Nat.le_refl _) .refl (h2 s hs)
  · obtain ⟨ss', k1, k2⟩ := reading_listed hct hw hd hg h hne ((ruleReading_iff hct).mp hes)
    rw [h1] at k1
    cases k1
    exact k2

/-- In particular for texts in which consonants are seldom in a row, if the dictionary words in it have one syllable. -/
theorem C54_sparse (hct : ct.Ok) (hw : fromBytes word = .ok w) (hd : Holds p.exceptDict look) (hg : GoodLook look)
    (hne : w ≠ []) (h : p.parseWord ct word = .ok d) (h1 : ch!"." ∉ w)
    (h2 : ∀ p q data strs str, look (piece w p q) = some data → DataIs data strs → str ∈ strs →
      str.length = 1)
    (h3 : ¬ u!"บริ" <:+: w) (h4 : ¬ u!"จระ" <:+: w) (h5 : Sparse ct w) :
    ∃ ss, PronunDAG.sylStrings d 0 = .ok ss ∧
      (∀ s ∈ ss, ∃ es, RuleReading ct w look (findBreaks w p.thBrk) es ∧ IsPron s es) ∧
      (∀ es, RuleReading ct w look (findBreaks w p.thBrk) es → ∃ s ∈ ss, IsPron s es) ∧
      ss.Pairwise fun a b => ¬ SamePron a b :=
  C54_unmixed hct hw hd hg hne h (sparse_unmixed hct h1 h2 h3 h4 h5)

/-- The two readings of ตลาด, and several readings of มานี: listed without mixing. -/
example : Unmixed thaiCType u!"ตลาด" (fun _ => none) [] ∧ Unmixed thaiCType u!"มานี" (fun _ => none) [] := by
  constructor
  · refine sparse_unmixed thaiCType_ok (by decide) (fun _ _ _ _ _ h => by cases h) (by decide) (by decide) ?_
    intro i c d n hi h1 h2 h3 h4 h5
    match i with
    | 0 => omega
    | 1 => cases h3; exact absurd h4 (by decide)
    | i + 2 => exact absurd (List.getElem?_eq_some_iff.mp h5).1 (by simp)
  · refine sparse_unmixed thaiCType_ok (by decide) (fun _ _ _ _ _ h => by cases h) (by decide) (by decide) ?_
    intro i c d n hi h1 h2 h3 h4 h5
    match i with
    | 0 => omega
    | 1 => cases h1; exact absurd h2 (by decide)
    | i + 2 => exact absurd (List.getElem?_eq_some_iff.mp h5).1 (by simp)

private def bau : Syl := ⟨.BA, SC.NONE, VW.AUU, .NONE, .SAMAN, [], -3⟩
private def riEk : Syl := ⟨.RA, SC.NONE, VW.I, .NONE, .EK, [], 3⟩
private def kaa : Syl := ⟨.KA, SC.NONE, VW.AA, .NONE, .SAMAN, [], 5⟩

/-- บริ is mixed: its readings บอ-ริ and บะ-หริ share a node, so บอ-หริ is listed too (here in บริกา). -/
theorem C54_false_pre : ∃ d ss s, (Parser.new (fun _ => []) false).parseWord thaiCType b!"บริกา" = .ok d ∧
    PronunDAG.sylStrings d 0 = .ok ss ∧ s ∈ ss ∧
    ¬ ∃ es, RuleReading thaiCType u!"บริกา" (fun _ => none) [] es ∧ IsPron s es := by
  obtain ⟨d, hd, h⟩ := parsesTo_spec (n := 60) (w := u!"บริกา") (dict := none) (brk := [])
    (P := fun d => match PronunDAG.sylStrings d 0 with | .ok ss => decide ([bau, riEk, kaa] ∈ ss) | _ => false)
    (by decide +kernel)
  have hss : ∃ ss, PronunDAG.sylStrings d 0 = .ok ss ∧ [bau, riEk, kaa] ∈ ss := by
    cases hs : PronunDAG.sylStrings d 0 with
    | ok ss => rw [hs] at h; exact ⟨ss, rfl, of_decide_eq_true h⟩
    | _ => rw [hs] at h; cases h
  obtain ⟨ss, hs1, hs2⟩ := hss
  refine ⟨d, ss, [bau, riEk, kaa], hd, hs1, hs2, ?_⟩
  rintro ⟨es, hr, hf⟩
  obtain ⟨c, hc, hlen, rfl⟩ := (ruleReading_iff thaiCType_ok).mp hr
  have hl : Letters thaiCType u!"บริกา" := ⟨by decide, by decide⟩
  have g0 : ∀ ems, grammar thaiCType u!"บริกา" 0 5 false ch!"บ" = .ok ems → ∀ em ∈ ems, ∀ x, em.p.pre = some x →
      x.vowel = VW.AUU → (em.p.toSyl em.pos).tone ≠ .EK := by
    intro ems h
    have : (match grammar thaiCType u!"บริกา" 0 5 false ch!"บ" with
      | .ok ems => decide (∀ em ∈ ems, ∀ x ∈ em.p.pre, x.vowel = VW.AUU → (em.p.toSyl em.pos).tone ≠ .EK)
      | _ => false) = true := by decide +kernel
    rw [h] at this
    exact of_decide_eq_true this
  have inv : (c.edges = [] → c = ⟨0, false, []⟩) ∧ (∀ e, c.edges = [e] → 0 ≤ e.target) ∧
      (∀ e1 e2 l, c.edges = e1 :: e2 :: l → e1.target < 0 → e1.val.vowel = VW.AUU → e2.val.tone ≠ .EK) := by
    clear hf hlen hr
    induction hc with
    | refl => exact ⟨fun _ => rfl, fun e h => (by cases h), fun _ _ _ h => (by cases h)⟩
    | @tail c c' _ hs ih =>
      obtain ⟨x, ems, em, hx, hg, hem, rfl⟩ := (hl.step_iff thaiCType_ok).mp hs
      have hne : sylEdges c.pos em ≠ [] := by unfold sylEdges; split <;> simp
      refine ⟨fun h => absurd (List.append_eq_nil_iff.mp h).2 hne, fun e h => ?_, fun e1 e2 l h h2 h3 => ?_⟩
      · simp only at h
        cases hce : c.edges with
        | nil =>
          rw [hce, List.nil_append] at h
          unfold sylEdges at h
          split at h
          · cases h
          · cases h; simp only; omega
        | cons a l =>
          rw [hce] at h
          exact absurd (List.append_eq_nil_iff.mp (List.cons.inj h).2).2 hne
      · simp only at h
        cases hce : c.edges with
        | nil =>
          obtain rfl := ih.1 hce
          rw [List.nil_append] at h
          cases hx
          unfold sylEdges at h
          split at h
          · next pre hpre =>
            cases h
            exact g0 ems hg em hem pre hpre h3
          · cases h
        | cons a m =>
          rw [hce] at h
          obtain ⟨rfl, h5⟩ := List.cons.inj h
          cases m with
          | nil =>
            have := ih.2.1 a hce
            omega
          | cons b m =>
            obtain ⟨rfl, -⟩ := List.cons.inj h5
            exact ih.2.2 a b m hce h2 h3
  generalize hes : c.edges = es at hf inv
  cases hf with
  | @cons _ e1 _ _ h1 h' =>
    cases h' with
    | @cons _ e2 _ _ h2 h' =>
      refine inv.2.2 e1 e2 _ rfl ?_ ?_ ?_
      · rw [← h1.2]; decide
      · exact (((Syl.eq_iff _ _).mp h1.1).2 rfl).2.2.1.symm
      · exact (((Syl.eq_iff _ _).mp h2.1).2 rfl).2.2.2.2.symm

end Thpronun
