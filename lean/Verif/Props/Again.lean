import Verif.Lemmas.Again

/-! # Property C67: the Thai line of a pronunciation, read again -/

namespace Thpronun
open Spec

/-- A pronunciation without other text, printed in Thai: its line, without the dots below, is given to a parser without
dictionary and word breaking. The parser returns, and among the pronunciations are the same syllables (with the hyphens
of the line as other text between them) if and only if each of them is `Respellable`. -/
theorem C67_exact (p : Parser) (hd : p.exceptDict = none) (hb : p.thBrk = none) (ss : List Syl) (hne : ss ≠ [])
    (h : ∀ s ∈ ss, ValidSyl s) :
    ∃ cs, delimStr thaiSyl ch!"-" ss = .ok (enc8 cs) ∧ ∃ d l, p.parseWord thaiCType (enc8 (plain cs)) = .ok d ∧
      PronunDAG.sylStrings d 0 = .ok l ∧ ((∃ z ∈ l, SameSounds z (withHyphens ss)) ↔ ∀ s ∈ ss, Respellable s) :=
  ⟨_, line_text h, read_again hd hb hne h⟩

/-- The line of a respellable pronunciation is read back. (Missing: the pronunciations with other syllables, which are
not read back by `C67_exact`, and the dots, which have to be taken away.) -/
theorem C67_partial (p : Parser) (hd : p.exceptDict = none) (hb : p.thBrk = none) (ss : List Syl) (hne : ss ≠ [])
    (h : ∀ s ∈ ss, ValidSyl s ∧ Respellable s) :
    ∃ cs, delimStr thaiSyl ch!"-" ss = .ok (enc8 cs) ∧ ∃ d l, p.parseWord thaiCType (enc8 (plain cs)) = .ok d ∧
      PronunDAG.sylStrings d 0 = .ok l ∧ ∃ z ∈ l, SameSounds z (withHyphens ss) := by
  obtain ⟨cs, h1, d, l, h2, h3, h4⟩ := C67_exact p hd hb ss hne fun s hs => (h s hs).1
  exact ⟨cs, h1, d, l, h2, h3, h4.mpr fun s hs => (h s hs).2⟩

/-- "หฺมา-เพฺลิน-น้ำ" -/
example : ∀ s ∈ [(⟨.MA, SC.NONE, VW.AA, .NONE, .CHATTAWA, [], 3⟩ : Syl), ⟨.PHA, SC.LA, VW.OEE, .KON, .SAMAN, [], 8⟩,
    ⟨.NA, SC.NONE, VW.A, .KOM, .TRI, [], 11⟩], ValidSyl s ∧ Respellable s := by decide +kernel

/-- The same for every pronunciation that any parser (with any dictionary and word breaker) lists for a word: the line
that the program prints for it with the option -t, read again. -/
theorem C67_word {ct : CType} (hct : ct.Ok) {p0 : Parser} {word : Str} {w : U16Str} {look : List Nat → Option Str}
    {d0 : PronunDAG} {l0 : List (List Syl)} (hw : fromBytes word = .ok w) (hd0 : Holds p0.exceptDict look)
    (hg : GoodLook look) (h0 : p0.parseWord ct word = .ok d0) (hl0 : PronunDAG.sylStrings d0 0 = .ok l0) (ss : List Syl)
    (hs : ss ∈ l0) (hlit : ∀ s ∈ ss, s.literal = []) (p : Parser) (hd : p.exceptDict = none) (hb : p.thBrk = none) :
    ∃ cs, delimStr thaiSyl ch!"-" ss = .ok (enc8 cs) ∧ ∃ d l, p.parseWord thaiCType (enc8 (plain cs)) = .ok d ∧
      PronunDAG.sylStrings d 0 = .ok l ∧ ((∃ z ∈ l, SameSounds z (withHyphens ss)) ↔ ∀ s ∈ ss, Respellable s) := by
  obtain ⟨hbu, hac⟩ := C38_acyclic hct hw hd0 hg h0
  obtain ⟨ps, e1, -, e3⟩ := C15_listing d0 hbu hac
  rw [hl0] at e1
  cases e1
  obtain ⟨r, hr, rfl⟩ := List.mem_map.mp hs
  have hm := (e3 r).mp hr
  refine C67_exact p hd hb _ (by cases hm <;> simp) fun s hsr => ?_
  obtain ⟨e, he, rfl⟩ := List.mem_map.mp hsr
  rcases (C39_labels hct hw hd0 hg h0 e (hm.mem he)).1 with hv | hv
  · exact hv
  · exact absurd (hlit _ hsr) hv.1

/-- With the dots, the line is not read back: "หมา" is printed "หฺมา", which is read with the dot as other text. -/
theorem C67_dots_false : ∃ d l s, (Parser.new (fun _ => []) false).parseWord thaiCType b!"หมา" = .ok d ∧
    PronunDAG.sylStrings d 0 = .ok l ∧ [s] ∈ l ∧ Respellable s ∧ ∃ t, delimStr thaiSyl ch!"-" [s] = .ok t ∧
    t = b!"หฺมา" ∧ ∃ d' l', (Parser.new (fun _ => []) false).parseWord thaiCType t = .ok d' ∧
      PronunDAG.sylStrings d' 0 = .ok l' ∧ ∀ z ∈ l', ¬ SameSounds z [s] := by
  obtain ⟨d, l, hd, hl, h⟩ := lists_spec (n := 40) (w := u!"หมา")
    (Q := fun l => decide ([(⟨.MA, SC.NONE, VW.AA, .NONE, .CHATTAWA, [], 3⟩ : Syl)] ∈ l)) (by decide +kernel)
  obtain ⟨d', l', hd', hl', h'⟩ := lists_spec (n := 40) (w := u!"หฺมา")
    (Q := fun l => l.all fun z => decide (z.length = 3)) (by decide +kernel)
  refine ⟨d, l, _, hd, hl, of_decide_eq_true h, by decide +kernel, _, (by decide +kernel : _ = Res.ok b!"หฺมา"), rfl, d',
    l', hd', hl', fun z hz hs => ?_⟩
  have := of_decide_eq_true (List.all_eq_true.mp h' z hz)
  rw [hs.length_eq] at this
  cases this

/-- The rules themselves read syllables that cannot be spelled: "เกยา" is also read with the long e before y, printed
"เกย-ยา"; this line is read otherwise. -/
theorem C67_false : ∃ d l ss, (Parser.new (fun _ => []) false).parseWord thaiCType b!"เกยา" = .ok d ∧
    PronunDAG.sylStrings d 0 = .ok l ∧ ss ∈ l ∧ delimStr thaiSyl ch!"-" ss = .ok b!"เกย-ยา" ∧
    ∃ d' l', (Parser.new (fun _ => []) false).parseWord thaiCType b!"เกย-ยา" = .ok d' ∧
      PronunDAG.sylStrings d' 0 = .ok l' ∧ ∀ z ∈ l', ¬ SameSounds z (withHyphens ss) := by
  obtain ⟨d, l, hd, hl, h⟩ := lists_spec (n := 40) (w := u!"เกยา")
    (Q := fun l => decide ([(⟨.KA, SC.NONE, VW.EE, .KOEY, .SAMAN, [], 2⟩ : Syl),
      ⟨.YA, SC.NONE, VW.AA, .NONE, .SAMAN, [], 4⟩] ∈ l)) (by decide +kernel)
  obtain ⟨d', l', h1, h2, h3⟩ := read_again (p := Parser.new (fun _ => []) false) rfl rfl
    (ss := [⟨.KA, SC.NONE, VW.EE, .KOEY, .SAMAN, [], 2⟩, ⟨.YA, SC.NONE, VW.AA, .NONE, .SAMAN, [], 4⟩]) (by simp)
    (by decide +kernel)
  refine ⟨d, l, _, hd, hl, of_decide_eq_true h, by decide +kernel, d', l', ?_, h2, fun z hz hs => ?_⟩
  · rw [← h1]
    exact congrArg _ (by decide +kernel)
  · exact absurd (h3.mp ⟨z, hz, hs⟩) (by decide +kernel)

end Thpronun
