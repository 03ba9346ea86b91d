import Verif.Props.Streams

/-! # Unusable dictionary files: C60 -/

namespace Thpronun
open Res Spec Cli

variable (prog version dflt : Str) (ct : CType) (brk : U16Str → List Int) (files : Option Str → Option DictFile)
  (args : List Str) (stdin : Str)

/-! ## C60: the program works without dictionary if the file is unusable -/

/-- A file with a negative size field in place of the data bank ends every run over words at once by an exception: no
word is processed and no message given. -/
theorem C60_size_false (r : Run) (hr : plan args (getLines stdin) = .ok (.inr r)) (t : Option Trie)
    (b0 b1 b2 b3 : Byte) (rest : Str) (h0 : 0x80 ≤ b0 ∧ b0 < 0x100 ∧ b1 < 0x100 ∧ b2 < 0x100 ∧ b3 < 0x100)
    (hf : files r.dictPath = some ⟨t, b0 :: b1 :: b2 :: b3 :: rest⟩) :
    mainS prog version dflt ct brk files args stdin = ⟨[], [], .throw .badAlloc⟩ := by
  have hl : (Parser.new brk r.isBreakWords).loadExceptDict (files r.dictPath) = .throw .badAlloc := by
    have hlt : Dict.toInt32 (b0 * 0x1000000 + b1 * 0x10000 + b2 * 0x100 + b3) < 0 := by
      unfold Dict.toInt32
      split <;> omega
    have hd : Dict.readDataBank (b0 :: b1 :: b2 :: b3 :: rest) = .throw .badAlloc := by
      simp only [Dict.readDataBank, Dict.readInt32]
      rw [if_pos hlt]
    rw [hf, Parser.loadExceptDict, Dict.open_]
    simp only [hd]
    rfl
  unfold mainS
  rw [hr, act_lift_ok]
  simp only
  rw [loadS, hl]
  rfl

/-- With a trie whose data are cut off, the first word that the trie knows is undefined behaviour. -/
theorem C60_cut_false : ∃ files : Option Str → Option DictFile,
    (mainS prog version dflt thaiCType (fun _ => []) files [b!"-n", b!"ก"] []).res = .ub ∧
    ∃ d, (Parser.new (fun _ => []) false).parseWord thaiCType b!"ก" = .ok d := by
  obtain ⟨file, p, h1, h2, h3⟩ := C33_false
  refine ⟨fun _ => some file, ?_, h3⟩
  have hr : plan [b!"-n", b!"ก"] (getLines []) =
    .ok (.inr ⟨none, false, [.delim ch!"t" ch!"-", .roman, .delim ch!"p" ch!" "], [b!"ก"]⟩) := by decide +kernel
  rw [mainS_run _ _ _ _ _ _ _ _ hr h1]
  simp only [wordsS, doParseS, h2]
  rfl

/-- If the file is there but does not begin with a trie, and what follows is not a negative size, the run is in every
respect that without dictionary file: output, messages and status. (Missing: negative size field, trie with missing,
empty or truncated data bank.) -/
theorem C60_partial (hct : ct.Ok) (r : Run) (hr : plan args (getLines stdin) = .ok (.inr r)) (f : DictFile)
    (hf : files r.dictPath = some f) (ht : f.trie = none) (hs : ∀ e, Dict.readDataBank f.rest ≠ .throw e) :
    mainS prog version dflt ct brk files args stdin = mainS prog version dflt ct brk (fun _ => none) args stdin := by
  have hn : (Parser.new brk r.isBreakWords).loadExceptDict none =
      .ok (⟨some Dict.empty, (Parser.new brk r.isBreakWords).thBrk⟩, false) := rfl
  obtain ⟨p, b, hl⟩ : ∃ p b, (Parser.new brk r.isBreakWords).loadExceptDict (files r.dictPath) = .ok (p, b) := by
    rw [hf, Parser.loadExceptDict, Dict.open_]
    cases hd : Dict.readDataBank f.rest with
    | ok x => exact ⟨_, _, rfl⟩
    | throw e => exact absurd hd (hs e)
    | ub | diverge =>
      unfold Dict.readDataBank at hd
      repeat' split at hd
      all_goals cases hd
  have h1 := fun w => C33_partial hct _ _ _ _ hl (fun g hg => by rw [hf] at hg; cases hg; exact ht) w
  have h2 := fun w => C33_partial hct _ _ _ _ hn (fun g hg => by cases hg) w
  rw [mainS_run _ _ _ _ _ _ _ _ hr hl, mainS_run (files := fun _ => none) _ _ _ _ _ _ _ hr hn, (h1 []).1,
    wordsS_congr r.outputs r.words fun w _ => ((h1 w).2.trans (h2 w).2.symm)]

/-- In particular the messages are given and the words are processed. -/
theorem C60_messages (hct : ct.Ok) (r : Run) (hr : plan args (getLines stdin) = .ok (.inr r)) (f : DictFile)
    (hf : files r.dictPath = some f) (ht : f.trie = none) (hs : ∀ e, Dict.readDataBank f.rest ≠ .throw e) :
    (mainS prog version dflt ct brk files args stdin).err = noDictText dflt r.dictPath := by
  rw [C60_partial prog version dflt ct brk files args stdin hct r hr f hf ht hs]
  exact C58_stderr prog version dflt ct brk _ args stdin hr (b := false)
    (p := ⟨some Dict.empty, (Parser.new brk r.isBreakWords).thBrk⟩) rfl

/-- The hypotheses of `C60_partial`: a short text file given as dictionary. -/
example : plan [b!"-dx", b!"กา"] (getLines []) =
      .ok (.inr ⟨some b!"x", true, [.delim ch!"t" ch!"-", .roman, .delim ch!"p" ch!" "], [b!"กา"]⟩) ∧
    (∀ e, Dict.readDataBank b!"no dictionary" ≠ .throw e) :=
  ⟨by decide +kernel, fun e h => by
    have : Dict.readDataBank b!"no dictionary" = .ok none := by decide +kernel
    rw [this] at h; cases h⟩

end Thpronun
