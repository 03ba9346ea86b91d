import Verif.Props.Cli
import Verif.Spec.Help

/-! # Property C94: the help text describes the options -/

namespace Thpronun
open Res Spec Cli

private theorem textLines_append (a b : Str) (h : 10 ∉ a) : textLines (a ++ 10 :: b) = a :: textLines b := by
  induction a with
  | nil => simp [textLines]
  | cons x a ih =>
    rw [List.mem_cons, not_or] at h
    rw [List.cons_append, textLines, if_neg (Ne.symm h.1), ih h.2]

/-- All that follows the first line of the help text. -/
private def helpTail : Str := (usageText []).drop 27

private theorem usage_split (prog : Str) : usageText prog = (b!"Usage: " ++ prog ++ b!" [OPTION] [WORD...]") ++ 10 :: helpTail := by
  have h3 : (usageText []).drop 7 = b!" [OPTION] [WORD...]" ++ 10 :: helpTail := by decide +kernel
  rw [List.append_assoc, ← h3, List.append_assoc]
  unfold usageText
  simp only [List.append_assoc]
  exact congrArg (b!"Usage: " ++ ·) (congrArg (prog ++ ·) (by decide +kernel))

private theorem usage_lines {prog : Str} (h : 10 ∉ prog) :
    textLines (usageText prog) = (b!"Usage: " ++ prog ++ b!" [OPTION] [WORD...]") :: textLines helpTail := by
  rw [usage_split, textLines_append]
  simp only [List.mem_append, not_or]
  exact ⟨⟨by decide, h⟩, by decide⟩

private theorem usage_entries {prog : Str} (h : 10 ∉ prog) : helpEntries (usageText prog) = helpEntries helpTail := by
  unfold helpEntries
  rw [usage_lines h, List.filterMap_cons]
  rfl

private theorem usage_section {prog : Str} (h : 10 ∉ prog) (title : Str) (ht : title.head? ≠ some ch!"U") :
    helpSection title (usageText prog) = helpSection title helpTail := by
  unfold helpSection
  rw [usage_lines h, List.dropWhile_cons_of_pos]
  simp only [ne_eq, decide_eq_true_eq]
  rintro rfl
  exact ht rfl

/-- The options known, each with its entry. -/
private theorem entries_eq : helpEntries helpTail = [
    b!"V, --version  Displays program version info", b!"h, --help     Displays help", b!"d<DICTPATH>   Use exception dict from <DICTPATH>",
    b!"n             Turns off word segmentation", b!"j             Turns on JSON output",
    b!"g             Turns on grouping in JSON output (implies '-j')", b!"r             Outputs Romanization",
    b!"t             Outputs Thai pronunciation", b!"p             Outputs Phonetic form", b!"w             Outputs Raw pronunciation code",
    b!"s             Outputs Soundex code"] := by decide +kernel

private theorem good_iff (c : Byte) (x : Str) :
    GoodArg (ch!"-" :: c :: x) ↔ c ∈ b!"dnjgrstpw" ∧ (c = ch!"d" → x ≠ []) := by
  unfold GoodArg optLetter
  constructor
  · intro h
    obtain ⟨c', h1, h2, h3⟩ := h rfl
    obtain rfl : c = c' := Option.some.inj h2
    exact ⟨h1, fun hd hx => by have := h3 hd; rw [hx] at this; simp at this⟩
  · rintro ⟨h1, h2⟩ -
    refine ⟨c, h1, rfl, fun hd => ?_⟩
    rcases x with _ | ⟨y, x⟩
    · exact absurd rfl (h2 hd)
    · simp

private theorem plan_one (pre : List Str) (hpre : ∀ b ∈ pre, GoodArg b) (c : Byte) (x : Str) (hc : c ≠ ch!"-") (stdin : List Str) :
    (plan (pre ++ [ch!"-" :: c :: x]) stdin = .ok (.inl (.unknownShort c)) ↔ c ∉ b!"Vhdnjgrtpws") ∧
    (plan (pre ++ [ch!"-" :: c :: x]) stdin = .ok (.inl .missingDict) ↔ c = ch!"d" ∧ x = []) := by
  have sub : ∀ c : Byte, c ∈ b!"dnjgrstpw" → c ∈ b!"Vhdnjgrtpws" := by decide
  have sub' : ∀ c : Byte, c ∈ b!"Vhdnjgrtpws" → c ∈ b!"dnjgrstpw" ∨ c = ch!"V" ∨ c = ch!"h" := by decide
  by_cases hg : GoodArg (ch!"-" :: c :: x)
  · rw [(C50_exact _ stdin _).mpr ⟨fun b hb => ?_, rfl⟩]
    · obtain ⟨h1, h2⟩ := (good_iff c x).mp hg
      exact ⟨⟨fun h => (nomatch h), fun h => absurd (sub c h1) h⟩, fun h => (nomatch h), fun h => absurd h.2 (h2 h.1)⟩
    · rcases List.mem_append.mp hb with hb | hb
      · exact hpre b hb
      · cases List.mem_singleton.mp hb
        exact hg
  · rw [plan_bad pre [] stdin _ hpre hg]
    have h1 : (ch!"-" :: c :: x)[1]? = some c := rfl
    dsimp only
    rw [h1, if_neg (by simpa using hc)]
    rw [good_iff] at hg
    by_cases hV : c = ch!"V"
    · subst hV
      rw [if_pos rfl]
      exact ⟨⟨fun h => (nomatch h), fun h => absurd (by decide) h⟩, fun h => (nomatch h), fun h => absurd h.1 (by decide)⟩
    · rw [if_neg (by simpa using hV)]
      by_cases hh : c = ch!"h"
      · subst hh
        rw [if_pos rfl]
        exact ⟨⟨fun h => (nomatch h), fun h => absurd (by decide) h⟩, fun h => (nomatch h), fun h => absurd h.1 (by decide)⟩
      · rw [if_neg (by simpa using hh)]
        by_cases hd : c = ch!"d"
        · subst hd
          rw [if_pos rfl]
          have hx : x = [] := by
            by_contra hx
            exact hg ⟨by decide, fun _ => hx⟩
          exact ⟨⟨fun h => (nomatch h), fun h => absurd (by decide) h⟩, fun _ => ⟨rfl, hx⟩, fun _ => rfl⟩
        · rw [if_neg (by simpa using hd)]
          refine ⟨⟨fun _ h => ?_, fun _ => rfl⟩, fun h => (nomatch h), fun h => absurd h.1 hd⟩
          rcases sub' c h with h | h | h
          · exact hg ⟨h, fun h => absurd h hd⟩
          · exact hV h
          · exact hh h

private theorem entry_letters (c : Byte) : (∃ e ∈ helpEntries helpTail, EntryOf c e) ↔ c ∈ b!"Vhdnjgrtpws" := by
  rw [entries_eq]
  unfold EntryOf
  simp only [List.mem_cons, List.not_mem_nil, or_false, exists_eq_or_imp, exists_eq_left, List.head?_cons, Option.some.injEq, @eq_comm _ _ c]

variable {prog : Str} (hprog : 10 ∉ prog)
include hprog

/-- C94: the options that the help text describes are just the known ones, wherever they stand. -/
theorem C94_known (pre : List Str) (hpre : ∀ b ∈ pre, GoodArg b) (c : Byte) (x : Str) (hc : c ≠ ch!"-") (stdin : List Str) :
    (∃ e ∈ helpEntries (usageText prog), EntryOf c e) ↔
      plan (pre ++ [ch!"-" :: c :: x]) stdin ≠ .ok (.inl (.unknownShort c)) := by
  rw [usage_entries hprog, entry_letters, ne_eq, (plan_one pre hpre c x hc stdin).1, not_not]

/-- The options described with an argument are just those that are refused without one. -/
theorem C94_argument (pre : List Str) (hpre : ∀ b ∈ pre, GoodArg b) (c : Byte) (hc : c ≠ ch!"-") (stdin : List Str) :
    (∃ e ∈ helpEntries (usageText prog), EntryOf c e ∧ TakesArg e) ↔ plan (pre ++ [[ch!"-", c]]) stdin = .ok (.inl .missingDict) := by
  rw [usage_entries hprog, (plan_one pre hpre c [] hc stdin).2, entries_eq]
  unfold EntryOf TakesArg
  simp only [List.mem_cons, List.not_mem_nil, or_false, exists_eq_or_imp, exists_eq_left, List.head?_cons, Option.some.injEq,
    List.drop_succ_cons, List.drop_zero]
  simp [eq_comm]

/-- The long names in the help text are just those known (alone on the command line; see C51), and do what the letter beside
them does. -/
theorem C94_long (name : Str) (stdin : List Str) :
    ((∃ e ∈ helpEntries (usageText prog), longName e = some name) ↔ plan [b!"--" ++ name] stdin ≠ .ok (.inl (.unknownLong (b!"--" ++ name)))) ∧
    ∀ e ∈ helpEntries (usageText prog), ∀ c, EntryOf c e → longName e = some name →
      plan [b!"--" ++ name] stdin = plan [[ch!"-", c]] stdin := by
  have h1 : (∃ e ∈ helpEntries helpTail, longName e = some name) ↔ name = b!"version" ∨ name = b!"help" := by
    have : (helpEntries helpTail).filterMap longName = [b!"version", b!"help"] := by rw [entries_eq]; decide +kernel
    rw [← List.mem_filterMap, this]
    simp
  have hb : ¬ GoodArg (b!"--" ++ name) := fun h => absurd ((good_iff ch!"-" name).mp h).1 (by decide)
  have hp := plan_bad [] [] stdin _ (by simp) hb
  have ve : plan [b!"--version"] stdin = .ok (.inl .version) := (C51_partial [] [] stdin (by simp)).2.2.1
  have he : plan [b!"--help"] stdin = .ok (.inl .usage) := (C51_partial [] [] stdin (by simp)).2.1 rfl
  rw [usage_entries hprog, h1]
  refine ⟨⟨?_, fun h => ?_⟩, fun e hm c hc hl => ?_⟩
  · rintro (rfl | rfl) h
    · exact nomatch ve.symm.trans h
    · exact nomatch he.symm.trans h
  · by_contra hn
    rw [not_or] at hn
    refine h (hp.trans ?_)
    have g1 : (b!"--" ++ name)[1]? = some ch!"-" := rfl
    have g2 : ¬ (b!"--" ++ name = b!"--version") := fun h => hn.1 (List.append_cancel_left (as := b!"--") h)
    have g3 : ¬ ((b!"--" ++ name).length < 2) := by simp
    have g4 : ¬ ((b!"--" ++ name).drop 2 = b!"help") := hn.2
    dsimp only [List.nil_append, List.headD_cons]
    rw [if_pos g1, if_neg g2, if_neg g3, if_neg g4]
  · have hv : name = b!"version" ∨ name = b!"help" := h1.mp ⟨e, hm, hl⟩
    have key : ∀ e ∈ helpEntries helpTail, (longName e = some b!"version" → e.head? = some ch!"V") ∧
        (longName e = some b!"help" → e.head? = some ch!"h") := by rw [entries_eq]; decide +kernel
    rcases hv with rfl | rfl
    · have := (key e hm).1 hl
      rw [hc] at this
      cases this
      exact ve.trans ((C51_partial [] [] stdin (by simp)).2.2.2 []).symm
    · have := (key e hm).2 hl
      rw [hc] at this
      cases this
      exact he.trans ((C51_partial [] [] stdin (by simp)).1 []).symm

private def letters (ls : List Str) : List Byte := ls.filterMap fun l => (helpEntry l).bind List.head?

omit hprog in
private theorem letters_iff (ls : List Str) (c : Byte) :
    (∃ l ∈ ls, ∃ e, helpEntry l = some e ∧ EntryOf c e) ↔ c ∈ letters ls := by
  unfold letters EntryOf
  rw [List.mem_filterMap]
  simp only [Option.bind_eq_some_iff]

/-- The options under the title `Output notations:` are just those that ask for one notation, which is then the only one
printed; under `Output structures:` stand just those that turn all outputs into JSON. -/
theorem C94_sections (c : Byte) (stdin : List Str) :
    ((∃ l ∈ helpSection b!"Output notations:" (usageText prog), ∃ e, helpEntry l = some e ∧ EntryOf c e) ↔
      ∃ r, plan [[ch!"-", c]] stdin = .ok (.inr r) ∧ r.outputs.length = 1) ∧
    ((∃ l ∈ helpSection b!"Output structures:" (usageText prog), ∃ e, helpEntry l = some e ∧ EntryOf c e) ↔
      ∃ r, plan [[ch!"-", c]] stdin = .ok (.inr r) ∧ ∀ k ∈ r.outputs, ∃ n, k = .json n ∨ k = .gjson n) := by
  rw [usage_section hprog _ (by decide), usage_section hprog _ (by decide), letters_iff, letters_iff]
  have n1 : letters (helpSection b!"Output notations:" helpTail) = b!"rtpws" := by decide +kernel
  have n2 : letters (helpSection b!"Output structures:" helpTail) = b!"jg" := by decide +kernel
  rw [n1, n2]
  have hex : ∀ P : Run → Prop, (∃ r, plan [[ch!"-", c]] stdin = .ok (.inr r) ∧ P r) ↔
      c ∈ b!"njgrstpw" ∧ P (meaning [[ch!"-", c]] stdin) := by
    intro P
    simp only [C50_exact, List.mem_singleton, forall_eq, good_iff]
    constructor
    · rintro ⟨r, ⟨⟨h1, h2⟩, rfl⟩, h⟩
      have sub : ∀ c : Byte, c ∈ b!"dnjgrstpw" → c ≠ ch!"d" → c ∈ b!"njgrstpw" := by decide
      exact ⟨sub c h1 fun h => h2 h rfl, h⟩
    · rintro ⟨h1, h⟩
      have sub : ∀ c : Byte, c ∈ b!"njgrstpw" → c ∈ b!"dnjgrstpw" ∧ c ≠ ch!"d" := by decide
      exact ⟨_, ⟨⟨(sub c h1).1, fun h => absurd h (sub c h1).2⟩, rfl⟩, h⟩
  rw [hex, hex]
  have e : (meaning [[ch!"-", c]] stdin).outputs = (meaning [[ch!"-", c]] []).outputs := rfl
  rw [e]
  have t1 : ∀ c ∈ b!"njgrstpw", (meaning [[ch!"-", c]] []).outputs.length = 1 ↔ c ∈ b!"rtpws" := by decide +kernel
  have t2 : ∀ c ∈ b!"njgrstpw", (∀ k ∈ (meaning [[ch!"-", c]] []).outputs, (match k with | .json _ => true | .gjson _ => true | _ => false) = true) ↔
      c ∈ b!"jg" := by decide +kernel
  have t3 : ∀ k : OutKind, (∃ n, k = .json n ∨ k = .gjson n) ↔ (match k with | .json _ => true | .gjson _ => true | _ => false) = true := by
    intro k
    cases k <;> simp
  simp only [t3]
  have s1 : ∀ c : Byte, c ∈ b!"rtpws" → c ∈ b!"njgrstpw" := by decide
  have s2 : ∀ c : Byte, c ∈ b!"jg" → c ∈ b!"njgrstpw" := by decide
  exact ⟨⟨fun h => ⟨s1 c h, (t1 c (s1 c h)).mpr h⟩, fun h => (t1 c h.1).mp h.2⟩,
    ⟨fun h => ⟨s2 c h, (t2 c (s2 c h)).mpr h⟩, fun h => (t2 c h.1).mp h.2⟩⟩

omit hprog in
/-- The hypotheses are met, and each kind of option exists. -/
example : 10 ∉ b!"thpronun" ∧ (∃ e ∈ helpEntries (usageText b!"thpronun"), EntryOf ch!"d" e ∧ TakesArg e) ∧
    (∃ e ∈ helpEntries (usageText b!"thpronun"), longName e = some b!"help") ∧
    (∃ l ∈ helpSection b!"Output structures:" (usageText b!"thpronun"), ∃ e ∈ helpEntry l, EntryOf ch!"g" e) ∧
    ¬ (∃ e ∈ helpEntries (usageText b!"thpronun"), EntryOf ch!"x" e) := by
  refine ⟨by decide, by decide +kernel, by decide +kernel, ?_, by decide +kernel⟩
  exact ⟨b!"  -g             Turns on grouping in JSON output (implies '-j')", by decide +kernel, _, rfl, rfl⟩

end Thpronun
