import Verif.Lemmas.NotBack

/-! # Properties C28 (the exact respelling) and C56: Thai respelling and reading it back -/

namespace Thpronun
open Spec

/-- The Thai notation of a syllable is its respelling by the primer. -/
theorem C28_exact (s : Syl) (h : ValidSyl s) : thaiSyl s = .ok (enc8 (respelled s)) := thai_exact s h

example : ValidSyl ⟨.MA, SC.NONE, VW.AA, .NONE, .CHATTAWA, [], -1⟩ ∧
    respelled ⟨.MA, SC.NONE, VW.AA, .NONE, .CHATTAWA, [], -1⟩ = u!"หฺมา" ∧
    respelled ⟨.PHA, SC.LA, VW.OEE, .KON, .SAMAN, [], -1⟩ = u!"เพฺลิน" ∧
    respelled ⟨.NA, SC.NONE, VW.UAA, .KOT, .EK, [], -1⟩ = u!"หฺนวด" ∧
    respelled ⟨.KA, SC.NONE, VW.A, .KOEW, .THO, [], -1⟩ = u!"เก้า" ∧
    respelled ⟨.LA, SC.NONE, VW.E, .KON, .THO, [], -1⟩ = u!"เล่น" := by decide +kernel

/-! ## C56: reading the respelling back -/

/-- A parser without dictionary lists the syllable for its own respelling (without the dots below), if the respelling
follows the rules of spelling and no word break falls inside it.
Missing for the full claim: the syllables that are not `Respellable`; they are not read back, see `C56_exact`. -/
theorem C56_partial (p : Parser) (s : Syl) (h : ValidSyl s) (hr : Respellable s) (hd : p.exceptDict = none)
    (hb : ∀ b ∈ findBreaks (plain (respelled s)) p.thBrk, b ≤ 0 ∨ b = (plain (respelled s)).length) :
    ∃ cs, thaiSyl s = .ok (enc8 cs) ∧ ∃ d ss x, p.parseWord thaiCType (enc8 (plain cs)) = .ok d ∧
      PronunDAG.sylStrings d 0 = .ok ss ∧ [x] ∈ ss ∧ ceq x s = true := by
  have hc : ∀ c ∈ plain (respelled s), c < 0xd800 := fun c hc =>
    respelled_thai h c (List.mem_filter.mp hc).1
  refine ⟨_, thai_exact s h, read_back h hr hd (fromBytes_ok.mpr ⟨_, fun c h => isScalar_iff.mpr (.inl (hc c h)), rfl, ?_⟩) hb⟩
  exact (enc16_bmp hc).symm

/-- "หฺมา", "เพฺลิน", "เล่น" without final, ... are covered. -/
example : ∀ s ∈ [(⟨.MA, SC.NONE, VW.AA, .NONE, .CHATTAWA, [], -1⟩ : Syl), ⟨.PHA, SC.LA, VW.OEE, .KON, .SAMAN, [], -1⟩,
    ⟨.KHA, SC.WA, VW.A, .KOEY, .CHATTAWA, [], -1⟩, ⟨.A, SC.NONE, VW.UEAA, .KOM, .THO, [], -1⟩],
    ValidSyl s ∧ Respellable s := by decide +kernel

/-- Exactly the respellable syllables are read back: the respelling of every valid syllable can be parsed and its
pronunciations can be listed, and the syllable is among them if and only if it is `Respellable`. -/
theorem C56_exact (p : Parser) (s : Syl) (h : ValidSyl s) (hd : p.exceptDict = none)
    (hb : ∀ b ∈ findBreaks (plain (respelled s)) p.thBrk, b ≤ 0 ∨ b = (plain (respelled s)).length) :
    ∃ cs, thaiSyl s = .ok (enc8 cs) ∧ ∃ d ss, p.parseWord thaiCType (enc8 (plain cs)) = .ok d ∧
      PronunDAG.sylStrings d 0 = .ok ss ∧ ((∃ x, [x] ∈ ss ∧ ceq x s = true) ↔ Respellable s) := by
  have hc : ∀ c ∈ plain (respelled s), c < 0xd800 := fun c hc =>
    respelled_thai h c (List.mem_filter.mp hc).1
  have hw := fromBytes_ok.mpr ⟨_, fun c h => isScalar_iff.mpr (.inl (hc c h)), rfl, (enc16_bmp hc).symm⟩
  obtain ⟨d, ss, h1, h2, h3⟩ := not_back h hd hw hb
  refine ⟨_, thai_exact s h, d, ss, h1, h2, fun ⟨x, hx, hxs⟩ => h3 x hx hxs, fun hr => ?_⟩
  obtain ⟨d', ss', x, k1, k2, k3, k4⟩ := read_back h hr hd hw hb
  rw [h1] at k1
  cases k1
  rw [h2] at k2
  cases k2
  exact ⟨x, k3, k4⟩

/-- Both kinds of syllables: "หฺมา" can be read back, "กิย" cannot. -/
example : (ValidSyl ⟨.MA, SC.NONE, VW.AA, .NONE, .CHATTAWA, [], -1⟩ ∧
      Respellable ⟨.MA, SC.NONE, VW.AA, .NONE, .CHATTAWA, [], -1⟩) ∧
    (ValidSyl ⟨.KA, SC.NONE, VW.I, .KOEY, .SAMAN, [], -1⟩ ∧
      ¬ Respellable ⟨.KA, SC.NONE, VW.I, .KOEY, .SAMAN, [], -1⟩) := by decide +kernel

/-- The middle tone on a dead syllable (กาก); a sound that is not spelled so (กิย, กว, เกียด for short ia, เล่น for
short e); a cluster that Thai does not have (มรา); ว as second consonant before an unwritten vowel (กวน): the
syllable is not among the readings of its respelling. -/
theorem C56_false : ∀ s ∈ [(⟨.KA, SC.NONE, VW.AA, .KOK, .SAMAN, [], -1⟩ : Syl), ⟨.KA, SC.NONE, VW.I, .KOEY, .SAMAN, [], -1⟩,
    ⟨.KA, SC.NONE, VW.O, .KOEW, .SAMAN, [], -1⟩, ⟨.KA, SC.NONE, VW.IA, .KOT, .EK, [], -1⟩,
    ⟨.LA, SC.NONE, VW.E, .KON, .THO, [], -1⟩, ⟨.MA, SC.RA, VW.AA, .NONE, .SAMAN, [], -1⟩,
    ⟨.KA, SC.WA, VW.O, .KON, .SAMAN, [], -1⟩],
    ValidSyl s ∧ ¬ Respellable s ∧ ∃ d ss, (Parser.new (fun _ => []) false).parseWord thaiCType
      (enc8 (plain (respelled s))) = .ok d ∧ PronunDAG.sylStrings d 0 = .ok ss ∧ ∀ x, [x] ∈ ss → ceq x s = false := by
  intro s hs
  refine ⟨(by decide +kernel : ∀ s ∈ _, ValidSyl s ∧ ¬ Respellable s) s hs |>.1,
    (by decide +kernel : ∀ s ∈ _, ValidSyl s ∧ ¬ Respellable s) s hs |>.2, ?_⟩
  have hf := (by decide +kernel : ∀ s ∈ _, fromBytes (enc8 (plain (respelled s))) = .ok (plain (respelled s)) ∧
    parsesTo 40 (plain (respelled s)) none [] (fun d => match PronunDAG.sylStrings d 0 with
      | .ok ss => ss.all fun l => match l with | [x] => !ceq x s | _ => true
      | _ => false) = true) s hs
  obtain ⟨d, hd, h⟩ := parsesTo_spec hf.2
  refine ⟨d, ?_⟩
  cases hss : PronunDAG.sylStrings d 0 with
  | ok ss =>
    rw [hss] at h
    refine ⟨ss, ?_, rfl, fun x hx => ?_⟩
    · unfold Parser.parseWord
      rw [hf.1]
      exact hd
    · simpa using List.all_eq_true.mp h _ hx
  | _ => rw [hss] at h; cases h

end Thpronun
