import Verif.Lemmas.Cli
import Verif.Props.Abbr

/-! # Command line: C50, C51, C52 -/

namespace Thpronun
open Res Spec Cli

/-! ## C50: options -/

/-- The program goes on to process words exactly if all options are known ones; then the options, notations and words
are those the usage text describes, wherever the options stand. -/
theorem C50_exact (args stdin : List Str) (r : Run) :
    plan args stdin = .ok (.inr r) ↔ (∀ a ∈ args, GoodArg a) ∧ r = meaning args stdin := by
  unfold plan
  by_cases h : ∀ a ∈ args, GoodArg a
  · rw [firstPass_all _ _ _ h, foldl_updOpt]
    simp only [ok_bind, pure_eq, Opts.init, Nat.zero_add, Option.or_none, Bool.true_and, Bool.false_or, outputsOf_eq,
      Res.ok.injEq, Sum.inr.injEq]
    have hw : (1 = args.length + 1 - (args.filter isOpt).length) ↔ args.all isOpt = true := by
      have h1 := List.length_filter_le isOpt args
      rw [List.all_eq_true, ← List.length_filter_eq_length_iff]
      omega
    unfold meaning
    simp only [hw, show (fun a => isWordArg a) = fun a => !isOpt a from funext isWordArg_eq]
    exact ⟨fun h' => ⟨h, h'.symm⟩, fun h' => h'.2.symm⟩
  · refine ⟨?_, fun h' => absurd h'.1 h⟩
    intro hp
    exfalso
    obtain ⟨pre, a, post, rfl, hpre, ha⟩ := first_bad h
    rw [firstPass_split _ _ _ _ hpre, bind_eq_ok] at hp
    obtain ⟨x, hx, hp⟩ := hp
    cases x with
    | inl s => cases hp
    | inr o => exact firstPass_bad_inl _ _ _ _ ha _ hx

/-- Moving options among each other and among the words changes nothing, as long as the notations, the words and the
dictionary options keep their order. -/
theorem C50_order (args args' stdin : List Str) (h : args.Perm args')
    (hn : notations args = notations args') (hw : args.filter (fun a => !isOpt a) = args'.filter fun a => !isOpt a)
    (hd : args.filter (fun a => optLetter a == some ch!"d") = args'.filter fun a => optLetter a == some ch!"d") (r : Run) :
    plan args stdin = .ok (.inr r) ↔ plan args' stdin = .ok (.inr r) := by
  rw [C50_exact, C50_exact]
  have h1 : (∀ a ∈ args, GoodArg a) ↔ ∀ a ∈ args', GoodArg a := by simp only [h.mem_iff]
  have h2 : ∀ c, given args c = given args' c := fun c => by
    unfold given
    rw [Bool.eq_iff_iff, List.any_eq_true, List.any_eq_true]
    simp only [h.mem_iff]
  have h3 : args.all isOpt = args'.all isOpt := by
    rw [Bool.eq_iff_iff, List.all_eq_true, List.all_eq_true]
    simp only [h.mem_iff]
  rw [h1]
  unfold meaning
  rw [hn, hw, hd, h3]
  simp only [h2]

/-- Each output prints the notation of its option letter, in order: as JSON, as grouped JSON, or as one line per
pronunciation (romanized with hyphens, the others with their separator). -/
theorem C50_notation (args stdin : List Str) (r : Run) (h : plan args stdin = .ok (.inr r)) :
    List.Forall₂ (fun c k => ∃ out sep, (c, out, sep) ∈ notationTable ∧ ∀ d, OutKind.run k d =
      if given args ch!"g" then gjsonDag out d
      else if given args ch!"j" then jsonDag out d
      else if c = ch!"r" then romanDag false d
      else delimDag out sep d)
      (if notations args = [] then b!"trp" else notations args) r.outputs := by
  obtain ⟨-, rfl⟩ := (C50_exact args stdin r).mp h
  have key : ∀ c ∈ b!"rstpw", ∃ out sep, (c, out, sep) ∈ notationTable ∧ ∀ d,
      OutKind.run (format (given args ch!"j" || given args ch!"g") (given args ch!"g") c) d =
      if given args ch!"g" then gjsonDag out d
      else if given args ch!"j" then jsonDag out d
      else if c = ch!"r" then romanDag false d
      else delimDag out sep d := by
    intro c hc
    generalize given args ch!"g" = g
    generalize given args ch!"j" = j
    simp only [List.mem_cons, List.not_mem_nil, or_false] at hc
    rcases hc with rfl | rfl | rfl | rfl | rfl
    · exact ⟨romanSyl, ch!"-", by simp [notationTable], fun d => by cases g <;> cases j <;> rfl⟩
    · exact ⟨soundexSyl, ch!"-", by simp [notationTable], fun d => by cases g <;> cases j <;> rfl⟩
    · exact ⟨thaiSyl, ch!"-", by simp [notationTable], fun d => by cases g <;> cases j <;> rfl⟩
    · exact ⟨phoneticSyl, ch!" ", by simp [notationTable], fun d => by cases g <;> cases j <;> rfl⟩
    · exact ⟨rawSyl, ch!",", by simp [notationTable], fun d => by cases g <;> cases j <;> rfl⟩
  have hm : ∀ c ∈ (if notations args = [] then b!"trp" else notations args), c ∈ b!"rstpw" := by
    split
    · decide
    · intro c hc
      simpa using (List.mem_filter.mp hc).2
  unfold meaning
  simp only
  revert hm
  generalize (if notations args = [] then b!"trp" else notations args) = l
  intro hm
  induction l with
  | nil => exact .nil
  | cons c l ih => exact .cons (key c (hm c (by simp))) (ih fun x hx => hm x (by simp [hx]))

/-- The hypothesis is met: JSON in phonetic notation, then Soundex. -/
example : ∃ r, plan [b!"-j", b!"-p", b!"-s", b!"กา"] [] = .ok (.inr r) ∧ notations [b!"-j", b!"-p", b!"-s", b!"กา"] = b!"ps" ∧
    r.outputs = [.json ch!"p", .json ch!"s"] :=
  ⟨meaning [b!"-j", b!"-p", b!"-s", b!"กา"] [], by decide +kernel, by decide +kernel, by decide +kernel⟩

/-- `-g` implies `-j`; `-j` and `-g` apply to every output. -/
theorem C50_json (args stdin : List Str) (r : Run) (h : plan args stdin = .ok (.inr r)) :
    (given args ch!"g" = true → ∀ k ∈ r.outputs, ∃ c, k = .gjson c) ∧
    (given args ch!"g" = false → given args ch!"j" = true → ∀ k ∈ r.outputs, ∃ c, k = .json c) ∧
    (given args ch!"g" = false → given args ch!"j" = false →
      ∀ k ∈ r.outputs, k = .roman ∨ ∃ c d, k = .delim c d) := by
  obtain ⟨-, rfl⟩ := (C50_exact args stdin r).mp h
  unfold meaning
  simp only
  refine ⟨fun hg k hk => ?_, fun hg hj k hk => ?_, fun hg hj k hk => ?_⟩
  · obtain ⟨c, -, rfl⟩ := List.mem_map.mp hk
    exact ⟨c, by rw [hg, Bool.or_true]; rfl⟩
  · obtain ⟨c, -, rfl⟩ := List.mem_map.mp hk
    exact ⟨c, by rw [hg, hj]; rfl⟩
  · obtain ⟨c, -, rfl⟩ := List.mem_map.mp hk
    rw [hg, hj]
    show format false false c = _ ∨ _
    unfold format
    split <;> simp_all

/-- Options before, between and after the words; notations in order. -/
example : plan [b!"กา", b!"-w", b!"-n", b!"นา", b!"-t", b!"-dmy.dic"] [] =
    .ok (.inr ⟨some b!"my.dic", false, [.delim ch!"w" ch!",", .delim ch!"t" ch!"-"], [b!"กา", b!"นา"]⟩) ∧
    plan [b!"กา", b!"-g"] [] = .ok (.inr ⟨none, true, [.gjson ch!"t", .gjson ch!"r", .gjson ch!"p"], [b!"กา"]⟩) := by
  decide +kernel

/-! ## C51: help -/

/-- The property is false: `--help` behind another option is reported as unknown. -/
theorem C51_false : plan [b!"-j", b!"--help"] [] = .ok (.inl (.unknownLong b!"--help")) := by decide +kernel

/-- After a word of less than two bytes, `--help` is undefined behaviour: `argv[1] + 2` is read beyond its end. -/
theorem C51_ub_false : plan [b!"a", b!"--help"] [] = .ub := by decide +kernel

/-- On the other hand an unknown option prints the usage text if the first argument ends in `help`. -/
theorem C51_other_false : plan [b!"..help", b!"--foo"] [] = .ok (.inl .usage) := by decide +kernel

/-- `-h` prints the usage text wherever it stands, and `--help` does as first argument, unless an argument before it
has ended the program. (Missing: `--help` in other places, see `C51_false`, `C51_ub_false`.) -/
theorem C51_partial (pre post stdin : List Str) (hpre : ∀ b ∈ pre, GoodArg b) :
    (∀ x, plan (pre ++ (b!"-h" ++ x) :: post) stdin = .ok (.inl .usage)) ∧
    (pre = [] → plan (pre ++ b!"--help" :: post) stdin = .ok (.inl .usage)) ∧
    plan (pre ++ b!"--version" :: post) stdin = .ok (.inl .version) ∧
    (∀ x, plan (pre ++ (b!"-V" ++ x) :: post) stdin = .ok (.inl .version)) := by
  have bad : ∀ c x, c ∉ b!"dnjgrstpw" → ¬ GoodArg (45 :: c :: x) := by
    intro c x hc h
    obtain ⟨c', h1, h2, -⟩ := h (by simp [isOpt])
    have : c = c' := by simpa [optLetter, isOpt] using h2
    exact hc (this ▸ h1)
  refine ⟨fun x => ?_, ?_, ?_, fun x => ?_⟩
  · exact (plan_bad pre post stdin _ hpre (bad _ _ (by decide))).trans (by simp)
  · rintro rfl
    exact (plan_bad [] post stdin _ hpre (bad _ _ (by decide))).trans (by simp)
  · exact (plan_bad pre post stdin _ hpre (bad _ _ (by decide))).trans (by simp)
  · exact (plan_bad pre post stdin _ hpre (bad _ _ (by decide))).trans (by simp)

/-- Option processing is undefined exactly if the first bad argument is a long option other than `--version` and
the first argument of all is shorter than two bytes. -/
theorem C51_ub (args stdin : List Str) : plan args stdin = .ub ↔ ∃ pre a post, args = pre ++ a :: post ∧
    (∀ b ∈ pre, GoodArg b) ∧ (∃ x, a = b!"--" ++ x) ∧ a ≠ b!"--version" ∧ (args.headD []).length < 2 := by
  constructor
  · intro h
    by_cases hg : ∀ a ∈ args, GoodArg a
    · rw [(C50_exact args stdin _).mpr ⟨hg, rfl⟩] at h; cases h
    · obtain ⟨pre, a, post, rfl, hpre, ha⟩ := first_bad hg
      rw [plan_bad pre post stdin a hpre ha] at h
      refine ⟨pre, a, post, rfl, hpre, ?_⟩
      have ho : isOpt a = true := by
        by_contra hn
        exact ha fun h' => absurd h' hn
      simp only at h
      by_cases h1 : a[1]? = some ch!"-"
      · rw [if_pos h1] at h
        by_cases h2 : a = b!"--version"
        · rw [if_pos h2] at h; cases h
        · rw [if_neg h2] at h
          by_cases h3 : ((pre ++ a :: post).headD []).length < 2
          · refine ⟨?_, h2, h3⟩
            match a, ho, h1 with
            | b :: c :: r, ho, h1 =>
              have hb : b = 45 := by simpa [isOpt] using ho
              have hc : c = 45 := by simpa using h1
              exact ⟨r, by rw [hb, hc]; rfl⟩
            | [b], ho, h1 => simp at h1
          · rw [if_neg h3] at h
            split at h <;> cases h
      · rw [if_neg h1] at h
        repeat' split at h
        all_goals cases h
  · rintro ⟨pre, a, post, rfl, hpre, ⟨x, rfl⟩, h2, h3⟩
    have ha : ¬ GoodArg (b!"--" ++ x) := by
      intro h
      obtain ⟨c', h1, h2, -⟩ := h (by simp [isOpt])
      have : 45 = c' := by simpa [optLetter, isOpt] using h2
      subst this
      revert h1; decide
    rw [plan_bad pre post stdin _ hpre ha]
    simp only
    rw [if_pos (by simp), if_neg h2, if_pos h3]

/-! ## C52: words -/

/-- The words are the arguments that are not options, in order, or the lines of the standard input if there is none;
the output is one block for each word in order: the word and a colon, then each output in order, all ended by
newlines. -/
theorem C52_words (args stdin : List Str) (r : Run) (h : plan args stdin = .ok (.inr r)) :
    r.words = if args.all isOpt then stdin else args.filter fun a => !isOpt a := by
  obtain ⟨-, rfl⟩ := (C50_exact args stdin r).mp h
  rfl

/-- The block of a word. -/
def IsBlock (parse : Str → Res PronunDAG) (outs : List OutKind) (word block : Str) : Prop :=
  ∃ d texts, parse word = .ok d ∧ List.Forall₂ (fun k t => k.run d = .ok t) outs texts ∧
    block = word ++ b!":\n" ++ texts.flatMap fun t => t ++ b!"\n"

theorem C52_output (parse : Str → Res PronunDAG) (outs : List OutKind) (words : List Str) (o : Str) :
    wordsLoop parse outs words = .ok o ↔
      ∃ blocks, List.Forall₂ (IsBlock parse outs) words blocks ∧ o = blocks.flatten := by
  induction words generalizing o with
  | nil =>
    constructor
    · intro h; cases h; exact ⟨[], .nil, rfl⟩
    · rintro ⟨texts, h, rfl⟩; cases h; rfl
  | cons w ws ih =>
    have hblock : ∀ b, doParse parse outs w = .ok b ↔ IsBlock parse outs w b := by
      intro b
      unfold doParse IsBlock
      simp only [bind_eq_ok, outputsLoop_iff, pure_eq]
      constructor
      · rintro ⟨d, hd, o, ⟨ts, hts, rfl⟩, h⟩
        cases h
        exact ⟨d, ts, hd, hts, by simp⟩
      · rintro ⟨d, ts, hd, hts, rfl⟩
        exact ⟨d, hd, _, ⟨ts, hts, rfl⟩, by simp⟩
    simp only [wordsLoop, bind_eq_ok, pure_eq, ih, hblock]
    constructor
    · rintro ⟨b, hb, r, ⟨bs, hbs, rfl⟩, h⟩
      cases h
      exact ⟨b :: bs, .cons hb hbs, by simp⟩
    · rintro ⟨bs, h, rfl⟩
      cases h with
      | @cons _ t _ ts ht hts => exact ⟨t, ht, _, ⟨ts, hts, rfl⟩, by simp⟩

/-- The lines of the standard input: without newlines, and together with their newlines they are the input (but for a
newline at the very end). -/
theorem C52_lines (s : Str) : (∀ l ∈ getLines s, ch!"\n" ∉ l) ∧
    ((getLines s).flatMap (fun l => l ++ b!"\n") = s ∨
      (s.getLast? ≠ some ch!"\n" ∧ (getLines s).flatMap (fun l => l ++ b!"\n") = s ++ b!"\n")) := by
  induction s with
  | nil => exact ⟨by simp [getLines], .inl rfl⟩
  | cons b bs ih =>
    obtain ⟨ih1, ih2⟩ := ih
    rw [getLines.eq_def]
    simp only
    by_cases hb : b = 10
    · subst hb
      rw [if_pos rfl]
      refine ⟨by simpa using ih1, ?_⟩
      rcases ih2 with h | ⟨h, h'⟩
      · left; simp [h]
      · right
        cases bs with
        | nil => simp [getLines] at h'
        | cons c cs => exact ⟨by rw [List.getLast?_cons_cons]; exact h, by simp [h']⟩
    · rw [if_neg hb]
      cases bs with
      | nil =>
        refine ⟨by simpa using Ne.symm hb, .inr ⟨by simpa using hb, by simp⟩⟩
      | cons c cs =>
        simp only
        cases hg : getLines (c :: cs) with
        | nil =>
          rw [hg] at ih2
          rcases ih2 with h | ⟨_, h⟩ <;> simp at h
        | cons l ls =>
          rw [hg] at ih1 ih2
          simp only [List.mem_cons, forall_eq_or_imp] at ih1
          refine ⟨?_, ?_⟩
          · simp only [List.mem_cons, forall_eq_or_imp, not_or]
            exact ⟨⟨Ne.symm hb, ih1.1⟩, ih1.2⟩
          · rw [List.getLast?_cons_cons]
            rcases ih2 with h | ⟨h, h'⟩
            · left; rw [← h]; simp
            · right
              refine ⟨h, ?_⟩
              rw [List.cons_append, ← h']; simp

example : getLines b!"กา\n\nนา" = [b!"กา", [], b!"นา"] ∧ getLines b!"กา\n" = [b!"กา"] := by decide +kernel

end Thpronun
