import Verif.Lemmas.AnyDict
import Verif.Props.Failing
import Verif.Props.Words
import Verif.Props.Program

/-! # Property C74: dictionary files of any origin -/

namespace Thpronun
open Res Spec Cli

variable {ct : CType} {w : U16Str} {brk : List Int}

private theorem look_eq {d : Dict} {look : List Nat → Option Str} (hl : ∀ v s, look v = some s ↔ Stored d v s) :
    look = storedOf d := by
  funext v
  cases h : storedOf d v with
  | some s => exact (hl v s).mpr (storedOf_iff.mp h)
  | none =>
    cases h' : look v with
    | none => rfl
    | some s => rw [storedOf_iff.mpr ((hl v s).mp h')] at h; cases h

/-- The number of a word is not checked: with a file of one word whose number leads out of the data, which is opened
without complaint, the word is undefined behaviour. -/
theorem C74_false : ∃ f : DictFile, (∃ t, f.trie = some t ∧ t.length = 1) ∧ ∃ p,
    (Parser.new (fun _ => []) false).loadExceptDict (some f) = .ok (p, true) ∧ p.parseWord thaiCType b!"ก" = .ub := by
  refine ⟨⟨some [(u!"ก", 2)], [0, 0, 0, 2, ch!"x", 0]⟩, ⟨_, rfl, rfl⟩,
    ⟨some ⟨some [(u!"ก", 2)], some [ch!"x", 0]⟩, none⟩, rfl, ?_⟩
  have hw : fromBytes b!"ก" = .ok u!"ก" := by decide +kernel
  have hparse : parseU16Fuel thaiCType u!"ก" 10 (some ⟨some [(u!"ก", 2)], some [ch!"x", 0]⟩) [] = .ub := by decide +kernel
  rw [C37_word _ _ _ hw]
  exact (parseU16_fuel (n := 10) (hparse ▸ by simp : parseU16Fuel _ _ _ _ _ ≠ _)).trans hparse

/-- Data that are too short for a syllable are undefined behaviour as well. -/
theorem C74_short_false : ∃ f : DictFile, ∃ p,
    (Parser.new (fun _ => []) false).loadExceptDict (some f) = .ok (p, true) ∧ (∀ d, p.exceptDict = some d → ∀ v, ¬ Astray d v) ∧
      p.parseWord thaiCType b!"ก" = .ub := by
  refine ⟨⟨some [(u!"ก", 0)], [0, 0, 0, 2, ch!"k", 0]⟩,
    ⟨some ⟨some [(u!"ก", 0)], some [ch!"k", 0]⟩, none⟩, rfl, ?_, ?_⟩
  · intro d hd v hv
    cases hd
    rw [astray_iff] at hv
    simp only [dataOf, Option.bind_some, Trie.get, List.lookup_cons, List.lookup_nil] at hv
    cases h : v == u!"ก" with
    | true => rw [h] at hv; revert hv; decide
    | false => rw [h] at hv; cases hv
  have hw : fromBytes b!"ก" = .ok u!"ก" := by decide +kernel
  have hparse : parseU16Fuel thaiCType u!"ก" 10 (some ⟨some [(u!"ก", 0)], some [ch!"k", 0]⟩) [] = .ub := by decide +kernel
  rw [C37_word _ _ _ hw]
  exact (parseU16_fuel (n := 10) (hparse ▸ by simp : parseU16Fuel _ _ _ _ _ ≠ _)).trans hparse

/-- Exactly when a text is parsed, for an opened dictionary file with any contents: no partial reading meets a word that
leads astray, none meets a word whose text does not follow the format, and none comes to a leading vowel other than SARA E
at the very end. -/
theorem C74_exact (hct : ct.Ok) (d : Dict) (look : List Nat → Option Str) (hl : ∀ v s, look v = some s ↔ Stored d v s)
    (hb : ∀ b ∈ brk, b ≤ w.length) :
    (∃ r, parseU16 ct w (some d) brk = .ok r) ↔
      (∀ c, RuleDeriv ct w look brk c → ¬ MeetsAstray ct w brk d c.pos) ∧ (∀ c, ¬ DeadEnd ct w look brk c) ∧
      ∀ c t q data, RuleDeriv ct w look brk c → TokenTo ct w brk c.pos t → WordAt ct w look c.pos t q data →
        ∃ strs, DataIs data strs := by
  cases look_eq hl
  obtain ⟨d', hd'⟩ := exists_stored d
  constructor
  · rintro ⟨r, hr⟩
    have hna : ∀ c, RuleDeriv ct w (storedOf d) brk c → ¬ MeetsAstray ct w brk d c.pos := fun c hc hm =>
      (parse_astray hct hb ((ruleDeriv_iff hct).mp hc) hm).1 r hr
    rw [parse_stored hct hd' fun c hc => hna c ((ruleDeriv_iff hct).mpr hc)] at hr
    exact ⟨hna, (C37_ok hct w (some d') brk (storedOf d) hd' hb).mp ⟨r, hr⟩⟩
  · rintro ⟨h1, h2⟩
    rw [parse_stored hct hd' fun c hc => h1 c ((ruleDeriv_iff hct).mpr hc)]
    exact (C37_ok hct w (some d') brk (storedOf d) hd' hb).mpr h2

/-- A word that leads astray makes the parser undefined when it is met, if the other words met can be read. -/
theorem C74_ub (hct : ct.Ok) (d : Dict) (look : List Nat → Option Str) (hl : ∀ v s, look v = some s ↔ Stored d v s)
    (hb : ∀ b ∈ brk, b ≤ w.length) (c : Config) (hc : RuleDeriv ct w look brk c) (hm : MeetsAstray ct w brk d c.pos)
    (hr : ∀ c t q data, RuleDeriv ct w look brk c → TokenTo ct w brk c.pos t → WordAt ct w look c.pos t q data →
      ∃ strs, DataIs data strs) : parseU16 ct w (some d) brk = .ub := by
  cases look_eq hl
  refine (parse_astray hct hb ((ruleDeriv_iff hct).mp hc) hm).2 fun c t hc hst m hm => ?_
  obtain ⟨strs, hs⟩ := hr c t m.1 m.2 ((ruleDeriv_iff hct).mpr hc) (tokenTo_iff.mpr hst) ((wordAt_iff hst.le).mpr hm)
  exact ⟨strs, (makeSylStrings_iff _ _).mpr hs⟩

/-- Words that lead astray and are not met do not count: the result is that with any dictionary of what is stored. -/
theorem C74_unmet (hct : ct.Ok) (d : Dict) (look : List Nat → Option Str) (hl : ∀ v s, look v = some s ↔ Stored d v s)
    (h : ∀ c, RuleDeriv ct w look brk c → ¬ MeetsAstray ct w brk d c.pos) (dict : Option Dict) (hd : Holds dict look) :
    parseU16 ct w (some d) brk = parseU16 ct w dict brk := by
  cases look_eq hl
  obtain ⟨d', hd'⟩ := exists_stored d
  rw [parse_stored hct hd' fun c hc => h c ((ruleDeriv_iff hct).mpr hc)]
  exact C42_local hct hd' hd fun _ _ _ _ _ => rfl

/-- A dictionary file without words that lead astray is, for all purposes of the other properties, the map of what it
stores. (Missing for the claim of the property: files with such words, and texts stored that do not follow the format;
see the counterexamples.) -/
theorem C74_partial (d : Dict) (look : List Nat → Option Str) (hl : ∀ v s, look v = some s ↔ Stored d v s)
    (h : ∀ v, ¬ Astray d v) : Holds (some d) look := by
  cases look_eq hl
  exact holds_stored d fun v hv => h v (astray_iff.mpr hv)

/-- Exactly when the program ends normally with a dictionary file of any contents whose stored texts are good: every word is
valid UTF-8, no partial reading of it meets a word that leads astray or comes to a leading vowel at its end, and, for plain
JSON output, it is not empty and has a reading. (A file that cannot be loaded is not excluded: with a trie whose data are
missing all words lead astray.) -/
theorem C74_run (hct : ct.Ok) (brk : U16Str → List Int) (files : Option Str → Option DictFile) (args : List Str)
    (stdin : Str) (r : Run) (hgood : ∀ a ∈ args, GoodArg a) (hr : r = meaning args (getLines stdin)) (p : Parser) (b : Bool)
    (hld : (Parser.new brk r.isBreakWords).loadExceptDict (files r.dictPath) = .ok (p, b)) (d : Dict)
    (hd : p.exceptDict = some d) (look : List Nat → Option Str) (hl : ∀ v s, look v = some s ↔ Stored d v s)
    (hg : GoodLook look)
    (hbr : ∀ word ∈ r.words, ∀ w, fromBytes word = .ok w → ∀ b ∈ findBreaks w p.thBrk, b ≤ w.length) :
    (∃ t, main ct brk files args stdin = .ok (.inr t)) ↔
      ∀ word ∈ r.words, ∃ w, fromBytes word = .ok w ∧
        (∀ c, RuleDeriv ct w look (findBreaks w p.thBrk) c → ¬ MeetsAstray ct w (findBreaks w p.thBrk) d c.pos) ∧
        (∀ c, ¬ DeadEnd ct w look (findBreaks w p.thBrk) c) ∧
        (given args ch!"j" = true → given args ch!"g" = false →
          w ≠ [] ∧ ∃ es, RuleReading ct w look (findBreaks w p.thBrk) es) := by
  have hplan := (C50_exact args (getLines stdin) r).mpr ⟨hgood, hr⟩
  rw [main_blocks hplan hld]
  cases look_eq hl
  obtain ⟨d', hd'⟩ := exists_stored d
  refine forall₂_congr fun word hword => ?_
  have hsame : ∀ w, fromBytes word = .ok w → (∀ c, RuleDeriv ct w (storedOf d) (findBreaks w p.thBrk) c →
      ¬ MeetsAstray ct w (findBreaks w p.thBrk) d c.pos) →
      p.parseWord ct word = Parser.parseWord ct ⟨some d', p.thBrk⟩ word := by
    intro w hw h
    rw [C37_word _ _ _ hw, C37_word _ _ _ hw, hd]
    exact C74_unmet hct d _ hl h _ hd'
  have hblock := block_iff (p := ⟨some d', p.thBrk⟩) (word := word) (args := args) (r := r) (stdin := stdin) hct hplan hd' hg (hbr word hword)
  have hcongr : p.parseWord ct word = Parser.parseWord ct ⟨some d', p.thBrk⟩ word →
      ∀ block, IsBlock (p.parseWord ct) r.outputs word block ↔
        IsBlock (Parser.parseWord ct ⟨some d', p.thBrk⟩) r.outputs word block := by
    intro h block
    unfold IsBlock
    rw [h]
  constructor
  · rintro ⟨block, hb⟩
    obtain ⟨w, hw, ha⟩ : ∃ w, fromBytes word = .ok w ∧ ∀ c, RuleDeriv ct w (storedOf d) (findBreaks w p.thBrk) c →
        ¬ MeetsAstray ct w (findBreaks w p.thBrk) d c.pos := by
      obtain ⟨g, ts, hg', -⟩ := hb
      have hp := hg'
      unfold Parser.parseWord at hp
      obtain ⟨w, hw, -⟩ := Res.bind_eq_ok.mp hp
      rw [C37_word _ _ _ hw, hd] at hg'
      exact ⟨w, hw, ((C74_exact hct d _ hl (hbr word hword w hw)).mp ⟨g, hg'⟩).1⟩
    obtain ⟨w', hw', h1, h2⟩ := hblock.mp ⟨block, (hcongr (hsame w hw ha) block).mp hb⟩
    rw [hw] at hw'
    cases hw'
    exact ⟨w, hw, ha, h1, h2⟩
  · rintro ⟨w, hw, ha, h⟩
    obtain ⟨block, hb⟩ := hblock.mpr ⟨w, hw, h⟩
    exact ⟨block, (hcongr (hsame w hw ha) block).mpr hb⟩

/-- Every dictionary has such a map. -/
theorem C74_map (d : Dict) : ∃ look : List Nat → Option Str, ∀ v s, look v = some s ↔ Stored d v s :=
  ⟨storedOf d, fun _ _ => storedOf_iff⟩

/-- A word that leads astray and is met (`C74_ub`), and one that is stored (`C74_partial`). -/
example : RuleDeriv thaiCType u!"ก" (fun _ => none) [] ⟨0, false, []⟩ ∧
    MeetsAstray thaiCType u!"ก" [] ⟨some [(u!"ก", 2)], some [ch!"x", 0]⟩ 0 ∧
    Stored ⟨some [(u!"ก", 1)], some (0 :: b!"k_a_1" ++ [0, 7])⟩ u!"ก" b!"k_a_1" := by
  refine ⟨.refl, meetsAstray_iff.mpr ⟨1, 1, ?_, by decide, by decide, by decide⟩, ?_⟩
  · exact isStop_whole (by decide) (by decide +kernel) fun b hb => by cases hb
  · exact ⟨1, ⟨_, rfl, rfl⟩, .inr ⟨by decide, _, [0], [7], rfl, rfl, rfl, by decide⟩⟩

end Thpronun
