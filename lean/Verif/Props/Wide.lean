import Verif.Lemmas.Wide
import Verif.Lemmas.ReadBack
import Verif.Props.Count

/-! # Property C98: a syllable takes at most twelve letters -/

namespace Thpronun
open Res Spec DAG Shipped

variable {ct : CType} {w : U16Str} {look : List Nat → Option Str} {p : Parser} {word : Str} {d : PronunDAG}
  {l : List (List Syl)}

/-- No pronunciation has less syllables than a twelfth of the Thai letters and signs of the word; the same with `N` for
twelve, if some readings of the dictionary have syllables of up to `N` letters. Periods and other text do not count. -/
theorem C98 (hct : ct.Ok) (hw : fromBytes word = .ok w) (hd : Holds p.exceptDict look) (hg : GoodLook look) (N : Nat)
    (hN : 12 ≤ N) (hp : NarrowLook N look) (h : p.parseWord ct word = .ok d) (hl : PronunDAG.sylStrings d 0 = .ok l)
    (ss : List Syl) (hs : ss ∈ l) : thaiIn ct w ≤ N * ss.length := by
  obtain ⟨hb, ha⟩ := C38_acyclic hct hw hd hg h
  obtain ⟨ps, h1, -, h3⟩ := C15_listing d hb ha
  obtain ⟨l', g1, g2⟩ := C38_listing hct hw hd hg h
  rw [hl] at g1
  cases g1
  have hf := (g2 ss hs).2
  rw [hl] at h1
  cases h1
  obtain ⟨path, hpath, rfl⟩ := List.mem_map.mp hs
  have hedge : ∀ e ∈ d.mFrom, Wide.upTo ct w e.val.endPos ≤ Wide.upTo ct w e.key + N := by
    intro e he
    obtain ⟨k1, -⟩ := C38_edges hct hw hd hg h e he
    obtain ⟨es, ⟨c, hc, -, rfl⟩, e', he', e1, e2, -⟩ :=
      (C43_edges hct hw hd h e.key e.target e.val).mp ⟨e, List.mem_filter.mpr ⟨he, by simp⟩, rfl, Syl.eq_refl _⟩
    have := Wide.deriv_few hct hN hp hc e' he'
    unfold Wide.Few at this
    rwa [e1, e2, ← k1] at this
  have key : ∀ n path, MaxPath d n path → Forward n w.length (path.map Entry.val) →
      Wide.upTo ct w w.length ≤ Wide.upTo ct w n + N * path.length := by
    intro n path hp
    induction hp with
    | @last n e he _ =>
      intro hf
      obtain ⟨hm, rfl⟩ := mem_outEdges.mp he
      have := hedge e hm
      have h2 : e.val.endPos = w.length := hf.2
      rw [h2] at this
      simpa using this
    | @step n e path he _ ih =>
      intro hf
      obtain ⟨hm, rfl⟩ := mem_outEdges.mp he
      have h2 := ih (by rw [← (C38_edges hct hw hd hg h e hm).1]; exact hf.2)
      rw [← (C38_edges hct hw hd hg h e hm).1] at h2
      have := hedge e hm
      rw [List.length_cons, Nat.mul_succ]
      omega
  have := key 0 path ((h3 path).mp hpath) hf
  unfold Wide.upTo at this
  rw [begun_nat, Int.toNat_natCast, List.take_length] at this
  rw [List.length_map]
  simpa [begun, thaiIn] using this

/-- The shipped dictionary has no wider syllables than the rules. -/
theorem C98_data : NarrowLook 12 (lastData exceptEntries) := by
  intro v data strs hl hdata
  unfold lastData at hl
  obtain ⟨e, he, rfl⟩ := Option.map_eq_some_iff.mp hl
  have key : ∀ e ∈ exceptEntries, (match SylString.makeSylStrings e.data with
      | .ok strs => decide (∀ str ∈ strs, Narrow 12 0 str)
      | _ => true) = true := by decide +kernel
  have := key e (List.mem_reverse.mp (List.mem_of_find?_eq_some he))
  rw [(makeSylStrings_iff _ _).mpr hdata] at this
  exact of_decide_eq_true this

/-- The shipped dictionary, and no dictionary, meet the hypotheses. -/
example : ∃ p : Parser, Holds p.exceptDict (lastData exceptEntries) ∧ GoodLook (lastData exceptEntries) ∧
    NarrowLook 12 (lastData exceptEntries) := by
  obtain ⟨-, -, p, -, -, -, h, h'⟩ := C48_dict 0 (Parser.new (fun _ => []) false)
  exact ⟨p, h, h', C98_data⟩

example : NarrowLook 12 fun _ => none := fun _ _ _ h => by cases h

/-- Twelve cannot be improved: for every `k` there is a word of `12 * k` letters with a pronunciation of `k` syllables,
without dictionary. -/
theorem C98_tight (k : Nat) (hk : 0 < k) : ∃ (word : Str) (d : PronunDAG) (l : List (List Syl)) (ss : List Syl),
    fromBytes word = .ok (widestTimes k) ∧ thaiIn thaiCType (widestTimes k) = 12 * k ∧
      (Parser.new (fun _ => []) false).parseWord thaiCType word = .ok d ∧ PronunDAG.sylStrings d 0 = .ok l ∧ ss ∈ l ∧
      ss.length = k := by
  have hc : ∀ c ∈ widestTimes k, c ∈ widest := by
    intro c hc
    obtain ⟨s, hs, hc⟩ := List.mem_flatten.mp hc
    rwa [(List.mem_replicate.mp hs).2] at hc
  have hlt : ∀ c ∈ widestTimes k, c < 0xd800 := fun c h => (by decide : ∀ c ∈ widest, c < 0xd800) c (hc c h)
  have hw : fromBytes (enc8 (widestTimes k)) = .ok (widestTimes k) :=
    fromBytes_ok.mpr ⟨_, fun c h => isScalar_iff.mpr (.inl (hlt c h)), rfl, (enc16_bmp hlt).symm⟩
  have hne : widestTimes k ≠ [] := by
    intro h
    have := Wide.times_length k
    rw [h] at this
    simp at this
    omega
  have hth : thaiIn thaiCType (widestTimes k) = 12 * k := by
    rw [← Wide.times_length k]
    exact List.countP_eq_length.mpr fun c h => (by decide : ∀ c ∈ widest, isThai thaiCType c = true) c (hc c h)
  obtain ⟨d, hd⟩ := C37_partial thaiCType_ok (Parser.new (fun _ => []) false) _ _ _ hw holds_none readable_none
    (fun b hb => by cases hb) fun c h =>
      (by decide : ∀ c ∈ widest, thaiCType.isLdVowel c = true → c = UTH.SARA_E) c (hc c (List.mem_of_getLast? h))
  obtain ⟨es, h1, h2⟩ := Wide.times_deriv k k (Nat.le_refl k)
  obtain ⟨l, g1, ss, g2, g3⟩ := reading_listed thaiCType_ok hw holds_none goodLook_none hd hne
    ((ruleReading_iff thaiCType_ok).mp ⟨_, h2, (Wide.times_length k).le, rfl⟩)
  exact ⟨_, d, l, ss, hw, hth, hd, g1, g2, g3.length_eq.trans h1⟩

/-- The condition on the dictionary is needed: thirteen letters as one syllable. -/
theorem C98_needed : ∃ (es : List DEntry) (p : Parser) (d : PronunDAG) (l : List (List Syl)) (ss : List Syl),
    GoodLook (lastData es) ∧ Holds p.exceptDict (lastData es) ∧ p.parseWord thaiCType b!"ณณณณณณณณณณณณณ" = .ok d ∧
      PronunDAG.sylStrings d 0 = .ok l ∧ ss ∈ l ∧ 12 * ss.length < thaiIn thaiCType u!"ณณณณณณณณณณณณณ" := by
  have hw : fromBytes b!"ณณณณณณณณณณณณณ" = .ok u!"ณณณณณณณณณณณณณ" := by decide +kernel
  have hdat : DataIs b!"n_a_3@13" [[⟨.NA, SC.NONE, VW.A, .NONE, .TRI, [], 13⟩]] :=
    (makeSylStrings_iff _ _).mp (by decide +kernel)
  obtain ⟨-, -, p, -, -, hb, hh⟩ := holds_generated 0 [⟨u!"ณณณณณณณณณณณณณ", b!"n_a_3@13"⟩] (by simp) (by decide +kernel)
    (by decide +kernel) (Parser.new (fun _ => []) false)
  have hlook : lastData [⟨u!"ณณณณณณณณณณณณณ", b!"n_a_3@13"⟩] u!"ณณณณณณณณณณณณณ" = some b!"n_a_3@13" := by decide +kernel
  have hfind : ∀ v data, lastData [⟨u!"ณณณณณณณณณณณณณ", b!"n_a_3@13"⟩] v = some data →
      v = u!"ณณณณณณณณณณณณณ" ∧ data = b!"n_a_3@13" := by
    intro v data hl
    unfold lastData at hl
    obtain ⟨e, he, rfl⟩ := Option.map_eq_some_iff.mp hl
    have h1 := List.find?_some he
    have h2 := List.mem_reverse.mp (List.mem_of_find?_eq_some he)
    rw [List.mem_singleton] at h2
    subst h2
    exact ⟨(of_decide_eq_true h1).symm, rfl⟩
  have hgood : GoodLook (lastData [⟨u!"ณณณณณณณณณณณณณ", b!"n_a_3@13"⟩]) := by
    intro v data hl
    obtain ⟨rfl, rfl⟩ := hfind v data hl
    exact ⟨_, (makeSylStrings_iff _ _).mpr hdat, by decide +kernel⟩
  have hbr : p.thBrk = none := hb
  have hf : findBreaks u!"ณณณณณณณณณณณณณ" p.thBrk = [] := by rw [hbr]; rfl
  obtain ⟨d, hd⟩ := C37_partial thaiCType_ok p _ _ _ hw hh hgood.readable
    (by rw [hf]; intro b hb; cases hb) (by decide +kernel)
  refine ⟨_, p, d, _, _, hgood, hh, hd, C42_single thaiCType_ok hw hh hgood hd ?_ hlook ?_ hdat, List.mem_singleton_self _, ?_⟩
  · rw [hf]
    exact tokenTo_iff.mpr (isStop_whole (by decide) (by decide +kernel) (fun b hb => by cases hb))
  · rintro m data ⟨h1, h2, h3, -⟩
    have h4 := congrArg List.length (hfind _ _ h3).1
    simp only [piece, List.length_take, List.length_drop] at h4
    have : (u!"ณณณณณณณณณณณณณ").length = 13 := rfl
    omega
  · decide +kernel

end Thpronun
