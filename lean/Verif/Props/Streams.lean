import Verif.Lemmas.Streams
import Verif.Props.Program

/-! # What a run writes, and its exit status: C58 -/

namespace Thpronun
open Res Spec Cli

variable (prog version dflt : Str) (ct : CType) (brk : U16Str → List Int) (files : Option Str → Option DictFile)
  (args : List Str) (stdin : Str)

/-! ## C58: streams and exit status -/

/-- The program ends as `main` does: with status 1 if an option ends it, with status 0 after the last word, otherwise by
the exception of the first word that fails. -/
theorem C58_status : (mainS prog version dflt ct brk files args stdin).res = status (main ct brk files args stdin) := by
  unfold mainS main
  rw [act_bind_res]
  show (plan args (getLines stdin) >>= _) = _
  cases hp : plan args (getLines stdin) with
  | ok x =>
    simp only [ok_bind]
    cases x with
    | inl s =>
      cases s <;> rfl
    | inr r =>
      simp only
      cases hl : (Parser.new brk r.isBreakWords).loadExceptDict (files r.dictPath) with
      | ok q =>
        obtain ⟨p, b⟩ := q
        rw [loadS_eq hl, act_bind_res]
        simp only [ok_bind, act_bind_res, (wordsS_facts _ _ _).2.1]
        cases wordsLoop (p.parseWord ct) r.outputs r.words <;> rfl
      | throw e => rw [loadS, hl]; rfl
      | ub => rw [loadS, hl]; rfl
      | diverge => rw [loadS, hl]; rfl
  | throw e => rfl
  | ub => rfl
  | diverge => rfl

/-- A run that ends normally after its words has written the block of each word in order, and nothing else. -/
theorem C58_normal {r : Run} {p : Parser} {b : Bool} (hr : plan args (getLines stdin) = .ok (.inr r))
    (hl : (Parser.new brk r.isBreakWords).loadExceptDict (files r.dictPath) = .ok (p, b))
    (h : (mainS prog version dflt ct brk files args stdin).res = .ok 0) :
    ∃ blocks, List.Forall₂ (IsBlock (p.parseWord ct) r.outputs) r.words blocks ∧
      (mainS prog version dflt ct brk files args stdin).out = blocks.flatten := by
  rw [mainS_run _ _ _ _ _ _ _ _ hr hl] at h ⊢
  obtain ⟨-, h2, h3, -⟩ := wordsS_facts (p.parseWord ct) r.outputs r.words
  simp only [h2] at h
  cases hw : wordsLoop (p.parseWord ct) r.outputs r.words with
  | ok o =>
    obtain ⟨bs, hbs, rfl⟩ := (C52_output _ _ _ _).mp hw
    exact ⟨bs, hbs, h3 _ hw⟩
  | throw e => rw [hw] at h; cases h
  | ub => rw [hw] at h; cases h
  | diverge => rw [hw] at h; cases h

/-- A run ended by an exception has written the complete blocks of the words before the failing one, and of the failing
word the heading and the outputs before the failing one; of later words nothing. -/
theorem C58_broken {r : Run} {p : Parser} {b : Bool} (hr : plan args (getLines stdin) = .ok (.inr r))
    (hl : (Parser.new brk r.isBreakWords).loadExceptDict (files r.dictPath) = .ok (p, b)) (e : Exc)
    (h : (mainS prog version dflt ct brk files args stdin).res = .throw e) :
    ∃ done word rest blocks broken, r.words = done ++ word :: rest ∧
      List.Forall₂ (IsBlock (p.parseWord ct) r.outputs) done blocks ∧
      BrokenBlock (p.parseWord ct) r.outputs e word broken ∧
      (mainS prog version dflt ct brk files args stdin).out = blocks.flatten ++ broken := by
  rw [mainS_run _ _ _ _ _ _ _ _ hr hl] at h ⊢
  obtain ⟨-, -, -, h4⟩ := wordsS_facts (p.parseWord ct) r.outputs r.words
  refine h4 e ?_
  simp only at h
  cases hw : (wordsS (p.parseWord ct) r.outputs r.words).res with
  | ok o => rw [hw] at h; cases h
  | throw e' => rw [hw] at h; cases h; rfl
  | ub => rw [hw] at h; cases h
  | diverge => rw [hw] at h; cases h

/-- Words never cause anything on the standard error: it has the two lines about the dictionary if that could not be
loaded, and is empty otherwise. -/
theorem C58_stderr {r : Run} {p : Parser} {b : Bool} (hr : plan args (getLines stdin) = .ok (.inr r))
    (hl : (Parser.new brk r.isBreakWords).loadExceptDict (files r.dictPath) = .ok (p, b)) :
    (mainS prog version dflt ct brk files args stdin).err = if b then [] else noDictText dflt r.dictPath := by
  rw [mainS_run _ _ _ _ _ _ _ _ hr hl]

/-- An option that ends the program does so with status 1 and before the dictionary or a word is looked at. The version
and the help go to the standard output, complaints to the standard error; for an unknown letter the help follows on the
standard output. -/
theorem C58_stop {s : Stop} (hs : plan args (getLines stdin) = .ok (.inl s)) :
    (mainS prog version dflt ct brk files args stdin).res = .ok 1 ∧
    ((mainS prog version dflt ct brk files args stdin).err = [] ↔ s = .version ∨ s = .usage) ∧
    (mainS prog version dflt ct brk files args stdin).out =
      (match s with
       | .version => versionText prog version
       | .usage => usageText prog
       | .unknownShort _ => usageText prog
       | .unknownLong _ => []
       | .missingDict => []) ∧
    (∀ a, s = .unknownLong a → (mainS prog version dflt ct brk files args stdin).err = b!"Unknown option '" ++ a ++ b!"'\n") ∧
    (∀ c, s = .unknownShort c → (mainS prog version dflt ct brk files args stdin).err = b!"Unknown option '-" ++ [c] ++ b!"'\n") ∧
    (s = .missingDict → (mainS prog version dflt ct brk files args stdin).err = b!"Missing <dict-path> argument for -d\n") := by
  have hm : mainS prog version dflt ct brk files args stdin = (stopS prog version s >>= fun _ => pure 1) := by
    unfold mainS
    rw [hs, act_lift_ok]
  simp only [hm]
  cases s <;> simp [stopS, act_put, act_eput, Act.put, act_pure, act_bind_ok]

/-- The hypotheses of `C58_broken`: a run that an exception ends. -/
example : plan [b!"แ"] (getLines []) =
      .ok (.inr ⟨none, true, [.delim ch!"t" ch!"-", .roman, .delim ch!"p" ch!" "], [b!"แ"]⟩) ∧
    (Parser.new (fun _ => []) true).loadExceptDict none = .ok (⟨some Dict.empty, some fun _ => []⟩, false) ∧
    (mainS prog version dflt thaiCType (fun _ => []) (fun _ => none) [b!"แ"] []).res = .throw .outOfRange :=
  ⟨by decide +kernel, rfl, by rw [C58_status, C55_throw_false]; rfl⟩

/-- The hypotheses of `C58_normal`: an empty standard input. -/
example : plan [b!"-p"] (getLines []) = .ok (.inr ⟨none, true, [.delim ch!"p" ch!" "], []⟩) ∧
    (mainS prog version dflt thaiCType (fun _ => []) (fun _ => none) [b!"-p"] []).res = .ok 0 := by
  have h : plan [b!"-p"] (getLines []) = .ok (.inr ⟨none, true, [.delim ch!"p" ch!" "], []⟩) := by decide +kernel
  refine ⟨h, ?_⟩
  rw [mainS_run _ _ _ _ _ _ _ _ h (p := ⟨some Dict.empty, some fun _ => []⟩) (b := false) rfl]
  rfl

/-- The hypotheses of `C58_stop`. -/
example : plan [b!"กา", b!"-x"] (getLines []) = .ok (.inl (.unknownShort ch!"x")) := by decide +kernel

end Thpronun
