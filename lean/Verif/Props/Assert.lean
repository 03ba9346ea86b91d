import Verif.Lemmas.ParserAssert
import Verif.Props.Failing

/-! # The assertions of the program: C83 -/

namespace Thpronun
open Res Spec DAG

variable {ct : CType} {w : U16Str} {look : List Nat → Option Str}

/-- The loop leaves with a failed assertion within `n` turns. -/
private theorem aborts {n : Nat} {w : U16Str} {brk : List Int} (h : parseU16DFuel thaiCType w n none brk = .abort) :
    parseU16D thaiCType w none brk = .abort := by
  unfold parseU16DFuel at h
  unfold parseU16D
  cases hp : parseInitD thaiCType w brk with
  | abort => rfl
  | run r =>
    rw [hp] at h
    cases r with
    | ok pool =>
      have h : Chk.ofLoop (iterLoop (chkStep (parseStepD thaiCType w none brk)) n (pool, DAG.empty)) = .abort := h
      show Chk.ofLoop (whileLoop (chkStep (parseStepD thaiCType w none brk)) (pool, DAG.empty)) = .abort
      rw [whileLoop_eq (n := n), h]
      intro h'; rw [h'] at h; cases h
    | throw e => cases h
    | ub => cases h
    | diverge => cases h

private theorem wordD (p : Parser) (word : Str) (w : U16Str) (h : fromBytes word = .ok w) :
    p.parseWordD ct word = parseU16D ct w p.exceptDict (findBreaks w p.thBrk) := by
  unfold Parser.parseWordD
  rw [h]; rfl

/-- Assertions do fail: built with them the program aborts on แ, and on แกว่ง when the word breaker puts a break after แ
(without assertions the latter is parsed). -/
theorem C83_false :
    (Parser.new (fun _ => []) false).parseWordD thaiCType b!"แ" = .abort ∧
    (Parser.new (fun _ => [1]) true).parseWordD thaiCType b!"แกว่ง" = .abort ∧
    ∃ d, (Parser.new (fun _ => [1]) true).parseWord thaiCType b!"แกว่ง" = .ok d := by
  refine ⟨?_, ?_, ?_⟩
  · rw [wordD _ _ u!"แ" (by decide +kernel)]
    exact aborts (n := 10) (by decide +kernel)
  · rw [wordD _ _ u!"แกว่ง" (by decide +kernel)]
    exact aborts (n := 10) (by decide +kernel)
  · rw [C37_word _ _ u!"แกว่ง" (by decide +kernel)]
    obtain ⟨d, hd, -⟩ := parsesTo_spec (n := 40) (w := u!"แกว่ง") (dict := none) (brk := [1]) (P := fun _ => true)
      (by decide +kernel)
    exact ⟨d, hd⟩

/-- Whatever the text, the dictionary and the breaks: a program with assertions aborts or does exactly what it does without
them. -/
theorem C83_same (hct : ct.Ok) (p : Parser) (word : Str) :
    p.parseWordD ct word = .abort ∨ p.parseWordD ct word = .run (p.parseWord ct word) := by
  unfold Parser.parseWordD Parser.parseWord
  cases fromBytes word with
  | ok w => exact parse_cases hct _
  | throw e => exact .inr rfl
  | ub => exact .inr rfl
  | diverge => exact .inr rfl

/-- With a readable dictionary and breaks inside the text it aborts exactly when a partial reading comes to a leading vowel
other than SARA E that ends its token, and then because `MatchInitCons` asserts that its position is before the stop. -/
theorem C83_exact (hct : ct.Ok) (p : Parser) (word : Str) (hw : fromBytes word = .ok w) (hd : Holds p.exceptDict look)
    (hr : Readable look) (hb : ∀ b ∈ findBreaks w p.thBrk, b ≤ w.length) :
    p.parseWordD ct word = .abort ↔ ∃ c, Trips ct w look (findBreaks w p.thBrk) c := by
  rw [wordD p word w hw]
  constructor
  · intro h
    by_contra hn
    rw [parse_run hct hd hn] at h
    cases h
  · rintro ⟨c, hc⟩
    exact parse_abort hct hd (met_of_readable hr) hb hc

/-- No assertion of the parser fails, and the result is that of the program without assertions, if every leading vowel other
than SARA E is followed by a letter of its token. (Missing: the other texts, see `C83_false` and `C83_exact`.) -/
theorem C83_partial (hct : ct.Ok) (p : Parser) (word : Str) (hw : fromBytes word = .ok w) (hd : Holds p.exceptDict look)
    (hn : ∀ (i x : Nat), w[i]? = some x → ct.isLdVowel x = true → x ≠ ch!"เ" →
      ¬ IsStop ct w (findBreaks w p.thBrk) i (i + 1)) :
    p.parseWordD ct word = .run (p.parseWord ct word) := by
  rw [wordD p word w hw, C37_word p word w hw]
  refine parse_run hct hd ?_
  rintro ⟨c, -, hst, -, x, hx, hld, hne⟩
  exact hn _ _ hx hld hne hst

/-- No assertion of the Thai output fails. -/
theorem C83_thai (s : Syl) : thaiSylD s = .run (thaiSyl s) := by
  show Ag (thaiSylD s) (thaiSyl s)
  unfold thaiSylD
  dsimp only
  by_cases hl : s.isLiteral = true
  · rw [if_pos hl, thaiSyl, if_pos hl]; rfl
  rw [if_neg hl]
  by_cases h1 : s.vowel = VW.I ∨ s.vowel = VW.UE ∨ s.vowel = VW.U
  · rw [if_pos h1]
    refine ag_assert (by rcases h1 with h | h | h <;> simp [h]) ?_
    have : thaiSyl s = thaiSylBelowAbove s.iCons1 s.iCons2 true s.vowel s.eCons s.tone := by
      unfold thaiSyl
      dsimp only
      rw [if_neg hl]
      rcases h1 with h | h | h <;> rw [h] <;> rfl
    rw [this]; exact ag_lift _
  rw [if_neg h1]
  by_cases h2 : s.vowel = VW.II ∨ s.vowel = VW.UU
  · rw [if_pos h2]
    refine ag_assert (by rcases h2 with h | h <;> simp [h]) ?_
    have : thaiSyl s = thaiSylBelowAbove s.iCons1 s.iCons2 false s.vowel s.eCons s.tone := by
      unfold thaiSyl
      dsimp only
      rw [if_neg hl]
      rcases h2 with h | h <;> rw [h] <;> rfl
    rw [this]; exact ag_lift _
  rw [if_neg h2]
  by_cases h3 : s.vowel = VW.E ∨ s.vowel = VW.AE
  · rw [if_pos h3]
    refine ag_assert (by rcases h3 with h | h <;> simp [h]) ?_
    have : thaiSyl s = thaiSylLeadShort s.iCons1 s.iCons2 s.vowel s.eCons s.tone := by
      unfold thaiSyl
      dsimp only
      rw [if_neg hl]
      rcases h3 with h | h <;> rw [h] <;> rfl
    rw [this]; exact ag_lift _
  rw [if_neg h3]
  by_cases h4 : s.vowel = VW.EE ∨ s.vowel = VW.AEE ∨ s.vowel = VW.OO
  · rw [if_pos h4]
    refine ag_assert (by rcases h4 with h | h | h <;> simp [h]) ?_
    have : thaiSyl s = thaiSylLeadLong s.iCons1 s.iCons2 s.vowel s.eCons s.tone := by
      unfold thaiSyl
      dsimp only
      rw [if_neg hl]
      rcases h4 with h | h | h <;> rw [h] <;> rfl
    rw [this]; exact ag_lift _
  rw [if_neg h4]
  exact ag_run _

/-- The hypotheses are met: เแก, read with no dictionary and no breaks. -/
example : Holds none (fun _ => none) ∧ Readable (fun _ => none) ∧
    (∀ (i x : Nat), (u!"เแก")[i]? = some x → thaiCType.isLdVowel x = true → x ≠ ch!"เ" → ¬ IsStop thaiCType u!"เแก" [] i (i + 1)) := by
  refine ⟨holds_none, (by intro v data h; cases h), fun i x hx hl hne hst => ?_⟩
  have h1 := hst.fin
  match i, hx with
  | 0, hx => cases hx; exact hne rfl
  | 1, hx =>
    rcases h1 with h | ⟨-, h⟩
    · revert h; decide
    · exact h ⟨ch!"ก", rfl, by decide⟩
  | 2, hx => cases hx; revert hl; decide

end Thpronun
