import Verif.Props.GenMain

/-! # C77: what the generator prints -/

namespace Thpronun
open Res Spec Gen

/-- Without exactly two arguments: the usage, and nothing else. -/
theorem C77_usage (sys : Sys) (junk : Byte) (fs : Files) (args : List Str) (h : args.length ≠ 2) :
    Gen.main sys junk fs args = .ok ⟨fs, 1, b!"Usage: gen-lookup-dict <input-file> <dict-file>\n", []⟩ := by
  match args, h with
  | [], _ => rfl
  | [_], _ => rfl
  | _ :: _ :: _ :: _, _ => rfl

/-- A source that cannot be read is named. -/
theorem C77_input (sys : Sys) (junk : Byte) (fs : Files) (inp outp : Str) (h : fs inp = none) :
    Gen.main sys junk fs [inp, outp] = .ok ⟨fs, 1, [], b!"Fail to open input file \"" ++ inp ++ b!"\" for reading.\n"⟩ := by
  simp only [Gen.main, h]

/-- An output that cannot be written is named. -/
theorem C77_output (sys : Sys) (junk : Byte) (fs : Files) (inp outp source : Str) (hs : fs inp = some source)
    (h : sys.canWrite outp = false) :
    Gen.main sys junk fs [inp, outp] = .ok ⟨fs, 1, [], b!"Fail to open output file \"" ++ outp ++ b!"\" for writing.\n"⟩ := by
  simp only [Gen.main, hs, h]
  rfl

theorem first_refused {es : List DEntry} (h : ¬ ∀ e ∈ es, ThaiWord e.word) :
    ∃ p e q, es = p ++ e :: q ∧ (∀ x ∈ p, ThaiWord x.word) ∧ ¬ ThaiWord e.word := by
  induction es with
  | nil => exact absurd (by simp) h
  | cons e es ih =>
    by_cases he : ThaiWord e.word
    · obtain ⟨p, x, q, h1, h2, h3⟩ := ih fun h' => h fun x hx => (List.mem_cons.mp hx).elim (fun h'' => h'' ▸ he) (h' x)
      exact ⟨e :: p, x, q, by rw [h1]; rfl, fun y hy => (List.mem_cons.mp hy).elim (fun h' => h' ▸ he) (h2 y), h3⟩
    · exact ⟨[], e, es, rfl, by simp, he⟩

/-- What is done and printed about any source. Of a line with a NUL the part before it is seen. Up to the first line that is no
entry all lines are read; if one of their words cannot be stored, the first such entry is shown, and the run fails. Otherwise,
if the first line that is no entry begins with a NUL, the behaviour is undefined; in all other cases the run succeeds, and the
first line that is no entry, if there is one, is shown. -/
theorem C77_exact (sys : Sys) (junk : Byte) (fs : Files) (inp outp source : Str) (hne : inp ≠ outp)
    (hw : sys.canWrite outp = true) (hs : fs inp = some source) (hb : ∀ b ∈ source, b < 256) :
    ∃ good rest es, FileLines source (good ++ rest) ∧ List.Forall₂ (fun l e => LineAs (beforeNul l) e) good es ∧
      (∀ l ∈ rest.head?, ∀ e, ¬ LineAs (beforeNul l) e) ∧
      (∀ p e q, es = p ++ e :: q → (∀ x ∈ p, ThaiWord x.word) → ¬ ThaiWord e.word →
        ∃ t, Refusal e t ∧ Gen.main sys junk fs [inp, outp] =
          .ok ⟨fs.set outp [], 1, [], t ++ b!"Fail to generate dictionary\n"⟩) ∧
      ((∀ e ∈ es, ThaiWord e.word) → (∃ l ∈ rest.head?, l.head? = some 0) → Gen.main sys junk fs [inp, outp] = .ub) ∧
      ((∀ e ∈ es, ThaiWord e.word) → (∀ l ∈ rest.head?, l.head? ≠ some 0) →
        ∃ fs' t, Gen.main sys junk fs [inp, outp] = .ok ⟨fs', 0, [], t⟩ ∧ (rest = [] → t = []) ∧
          ∀ l ∈ rest.head?, Complaint (beforeNul l) t) := by
  have hsd : fs.set outp [] inp = some source := by rw [Files.set, if_neg hne, hs]
  obtain ⟨ls, hls⟩ := fileLines_exists source
  obtain ⟨good, rest, es, rfl, h2, h3, h4, h4u, h5⟩ := genLoopT_file junk hls hb (source.length + 1) (by omega) [] _ []
    (genInv_new junk)
  refine ⟨good, rest, es, hls, h2, h3, fun p e q he hp hn => ?_, fun ha hn => ?_, fun ha hn => ?_⟩
  · obtain ⟨text, hg, hr⟩ := h5 p e q he hp hn
    have hg : genDictT junk source = .ok (.failure, text) := hg
    refine ⟨text, hr, ?_⟩
    simp only [Gen.main, hs, hw, if_true, hsd, Option.getD_some, hg, ok_bind, pure_eq]
  · have hg : genDictT junk source = .ub := h4u ha hn
    simp only [Gen.main, hs, hw, if_true, hsd, Option.getD_some, hg]
    rfl
  · obtain ⟨t, b, text, hg, -, h6, h7⟩ := h4 ha hn
    have hg : genDictT junk source = .ok (.success t b, text) := hg
    refine ⟨(fs.set outp []).set outp (sys.arrive (sys.trieBytes t ++ dataBankWrite b)), text, ?_, h6, h7⟩
    simp only [Gen.main, hs, hw, if_true, hsd, Option.getD_some, hg, ok_bind, pure_eq]

/-- The run succeeds without a word exactly if all lines (cut after 255 bytes and at a NUL) are entries with words of the Thai
block. -/
theorem C77_silent (sys : Sys) (junk : Byte) (fs : Files) (inp outp source : Str) (hne : inp ≠ outp)
    (hw : sys.canWrite outp = true) (hs : fs inp = some source) (hb : ∀ b ∈ source, b < 256)
    (ls : List Str) (hls : FileLines source ls) :
    (∃ fs', Gen.main sys junk fs [inp, outp] = .ok ⟨fs', 0, [], []⟩) ↔
      ∀ l ∈ ls, ∃ e, LineAs (beforeNul l) e ∧ ThaiWord e.word := by
  obtain ⟨good, rest, es, h1, h2, h3, h7, h6u, h6⟩ := C77_exact sys junk fs inp outp source hne hw hs hb
  cases fileLines_unique hls h1
  have hdet : ∀ l e e', LineAs l e → LineAs l e' → (∀ b ∈ l, b < 256) → l.length ≤ 255 → e' = e := by
    rintro l ⟨w, d⟩ ⟨w', d'⟩ he he' hl hn
    obtain ⟨x, hx, rfl⟩ := lineOf_complete hl hn he
    obtain ⟨y, hy, rfl⟩ := lineOf_complete hl hn he'
    rw [hx] at hy
    obtain ⟨rfl, rfl⟩ := Prod.mk.inj (Option.some.inj hy)
    rfl
  constructor
  · rintro ⟨fs', hm⟩
    have ha : ∀ e ∈ es, ThaiWord e.word := by
      by_contra hn
      obtain ⟨p, e, q, a, b, c⟩ := first_refused hn
      obtain ⟨t, -, h8⟩ := h7 p e q a b c
      rw [hm] at h8
      simp at h8
    have hr : rest = [] := by
      cases rest with
      | nil => rfl
      | cons l rest =>
        by_cases h0 : l.head? = some 0
        · rw [h6u ha ⟨l, rfl, h0⟩] at hm; cases hm
        · obtain ⟨fs'', t, h8, -, h9⟩ := h6 ha (by intro l' hl'; cases hl'; exact h0)
          rw [hm] at h8
          cases h8
          exact absurd rfl (complaint_ne (h9 l rfl))
    subst hr
    intro l hl
    rw [List.append_nil] at hl
    obtain ⟨e, he, hle⟩ := forall₂_mem_left h2 hl
    exact ⟨e, hle, ha e he⟩
  · intro hall
    have hr : rest = [] := by
      cases rest with
      | nil => rfl
      | cons l rest =>
        obtain ⟨e, he, -⟩ := hall l (by simp)
        exact absurd he (h3 l rfl e)
    subst hr
    rw [List.append_nil] at hall h1
    have ha : ∀ e ∈ es, ThaiWord e.word := by
      intro e he
      obtain ⟨l, hl, hle⟩ := forall₂_mem_right h2 he
      obtain ⟨e', he', ht⟩ := hall l hl
      have hm := fileLines_mem h1 l hl
      rw [← hdet _ e e' hle he' (fun b hb' => hb b (hm.1 b (beforeNul_mem b hb')))
        (((List.takeWhile_sublist _).length_le).trans hm.2)]
      exact ht
    obtain ⟨fs', t, h8, h9, -⟩ := h6 ha (by simp)
    rw [h9 rfl] at h8
    exact ⟨fs', h8⟩

/-- What is stored of any source: the entries before the first line that is none, and no others. The generator is defined
unless that line begins with a NUL. -/
theorem C32_any (junk : Byte) (file : Str) (hb : ∀ b ∈ file, b < 256) :
    ∃ good rest es, FileLines file (good ++ rest) ∧ List.Forall₂ (fun l e => LineAs (beforeNul l) e) good es ∧
      (∀ l ∈ rest.head?, ∀ e, ¬ LineAs (beforeNul l) e) ∧
      ((∃ e ∈ es, ¬ ThaiWord e.word) → genDict junk file = .ok .failure) ∧
      ((∀ e ∈ es, ThaiWord e.word) → (∃ l ∈ rest.head?, l.head? = some 0) → genDict junk file = .ub) ∧
      ((∀ e ∈ es, ThaiWord e.word) → (∀ l ∈ rest.head?, l.head? ≠ some 0) → ∃ t b, genDict junk file = .ok (.success t b) ∧
        (∀ w, (t.get w).isSome = (lastData es w).isSome) ∧
        ∀ w i, t.get w = some i → ∃ s, lastData es w = some s ∧
          (Dict.mk (some t) (some (b.pool.take b.dataSize))).getData i = .ok s) := by
  obtain ⟨ls, hls⟩ := fileLines_exists file
  obtain ⟨good, rest, es, rfl, h2, h3, h4, h4u, h5⟩ := genLoopT_file junk hls hb (file.length + 1) (by omega) [] _ []
    (genInv_new junk)
  have hto : ∀ r, genDictT junk file = r → genDict junk file = (r >>= fun r => .ok r.1) := by
    rintro r rfl; exact genDictT_fst junk file
  refine ⟨good, rest, es, hls, h2, h3, fun hn => ?_, fun ha hn => hto _ (h4u ha hn), fun ha hn => ?_⟩
  · obtain ⟨p, e, q, a, b, c⟩ := first_refused (es := es) (by push Not; exact hn)
    obtain ⟨text, hg, -⟩ := h5 p e q a b c
    exact hto _ hg
  · obtain ⟨t, b, text, hg, h7, -⟩ := h4 ha hn
    rw [List.append_nil] at h7
    have hs' : ∀ w, (t.get w).isSome = (lastData es w).isSome := by
      intro w
      have := genInv_newest h7 w
      rw [newest_eq, ← Option.isSome_iff_exists, ← Option.isSome_iff_exists] at this
      exact Bool.eq_iff_iff.mpr this
    refine ⟨t, b, hto _ hg, hs', fun w i hi => ?_⟩
    obtain ⟨s, hl⟩ := Option.isSome_iff_exists.mp (by rw [← hs' w, hi]; rfl : (lastData es w).isSome = true)
    obtain ⟨j, hj, _, hd⟩ := genInv_data h7 w s (by rw [newest_eq]; exact hl)
    rw [hi] at hj
    cases hj
    exact ⟨s, hl, hd⟩

/-- The status alone does not tell: the run stops at a line without TAB, says so, and succeeds. -/
theorem C77_status_false (sys : Sys) (fs : Files) (hw : sys.canWrite b!"d" = true) (hs : fs b!"s" = some b!"bad\nก\tk_a_1\n") :
    ∃ fs', Gen.main sys 0 fs [b!"s", b!"d"] = .ok ⟨fs', 0, [], b!"Cannot find TAB delimeter.\nLine:bad\n"⟩ := by
  have hsd : fs.set b!"d" [] b!"s" = fs b!"s" := by rw [Files.set, if_neg (by decide)]
  have hg : genDictT 0 b!"bad\nก\tk_a_1\n" = .ok (.success [] (newDataBank 0), b!"Cannot find TAB delimeter.\nLine:bad\n") := by
    decide +kernel
  refine ⟨(fs.set b!"d" []).set b!"d" (sys.arrive (sys.trieBytes [] ++ dataBankWrite (newDataBank 0))), ?_⟩
  simp only [Gen.main, hs, hw, if_true, hsd, Option.getD_some, hg, ok_bind, pure_eq]

theorem success_of {junk : Byte} {f : Str} (P : Trie → DataBank → Bool)
    (h : (match genDictT junk f with | .ok (.success t b, []) => P t b | _ => false) = true) :
    ∃ t b, genDictT junk f = .ok (.success t b, []) ∧ P t b = true := by
  split at h
  · rename_i t b hg; exact ⟨t, b, hg, h⟩
  · cases h

/-- Success without a word, though the data of a line are cut at a NUL. -/
theorem C77_false (sys : Sys) (fs : Files) (hw : sys.canWrite b!"d" = true) (ha : ∀ s, sys.arrive s = s)
    (hs : fs b!"s" = some (b!"ก\tk_a_1" ++ [0] ++ b!";K_a_1\n")) :
    ∃ fs' t b, Gen.main sys 0 fs [b!"s", b!"d"] = .ok ⟨fs', 0, [], []⟩ ∧
      fs' b!"d" = some (sys.trieBytes t ++ dataBankWrite b) ∧
      t.get u!"ก" = some 0 ∧ (Dict.mk (some t) (some (b.pool.take b.dataSize))).getData 0 = .ok b!"k_a_1" := by
  have hsd : fs.set b!"d" [] b!"s" = fs b!"s" := by rw [Files.set, if_neg (by decide)]
  obtain ⟨t, b, hg, hp⟩ := success_of (junk := 0) (f := b!"ก\tk_a_1" ++ [0] ++ b!";K_a_1\n")
    (fun t b => decide (t.get u!"ก" = some 0 ∧
      (Dict.mk (some t) (some (b.pool.take b.dataSize))).getData 0 = .ok b!"k_a_1")) (by decide +kernel)
  refine ⟨(fs.set b!"d" []).set b!"d" (sys.trieBytes t ++ dataBankWrite b), t, b, ?_, ?_, of_decide_eq_true hp⟩
  · simp only [Gen.main, hs, hw, if_true, hsd, Option.getD_some, hg, ok_bind, pure_eq, ha]
  · rw [Files.set, if_pos rfl]

/-- Success without a word, though a long line is taken for two entries. -/
theorem C77_long_false (sys : Sys) (fs : Files) (hw : sys.canWrite b!"d" = true) (ha : ∀ s, sys.arrive s = s)
    (hs : fs b!"s" = some (b!"ก\t" ++ List.replicate 251 ch!"x" ++ b!"ข\ty\n")) :
    ∃ fs' t b, Gen.main sys 0 fs [b!"s", b!"d"] = .ok ⟨fs', 0, [], []⟩ ∧
      fs' b!"d" = some (sys.trieBytes t ++ dataBankWrite b) ∧ t.get u!"ก" ≠ none ∧ t.get u!"ข" ≠ none := by
  have hsd : fs.set b!"d" [] b!"s" = fs b!"s" := by rw [Files.set, if_neg (by decide)]
  obtain ⟨t, b, hg, hp⟩ := success_of (junk := 0) (f := b!"ก\t" ++ List.replicate 251 ch!"x" ++ b!"ข\ty\n")
    (fun t b => decide (t.get u!"ก" ≠ none ∧ t.get u!"ข" ≠ none)) (by decide +kernel)
  refine ⟨(fs.set b!"d" []).set b!"d" (sys.trieBytes t ++ dataBankWrite b), t, b, ?_, ?_, of_decide_eq_true hp⟩
  · simp only [Gen.main, hs, hw, if_true, hsd, Option.getD_some, hg, ok_bind, pure_eq, ha]
  · rw [Files.set, if_pos rfl]

/-- A source of lines without NUL and of at most 254 bytes: if the run succeeds without a word, every line is an entry, and
the dictionary that has been written gives for every word the data of its last line. (Missing: NUL, long lines, a full disk;
see the counterexamples.) -/
theorem C77_partial (sys : Sys) (ha : ∀ s, sys.arrive s = s) (junk : Byte) (fs fs' : Files) (inp outp : Str) (hne : inp ≠ outp)
    (ls : List Str) (hl : ∀ l ∈ ls, l.length ≤ 254 ∧ ∀ b ∈ l, b < 256 ∧ b ≠ 10 ∧ b ≠ 0)
    (hs : fs inp = some (ls.flatMap fun l => l ++ b!"\n")) (h : Gen.main sys junk fs [inp, outp] = .ok ⟨fs', 0, [], []⟩) :
    ∃ es t b, List.Forall₂ LineAs ls es ∧ fs' outp = some (sys.trieBytes t ++ dataBankWrite b) ∧
      (∀ w, (t.get w).isSome = (lastData es w).isSome) ∧
      ∀ w i, t.get w = some i → ∃ s, lastData es w = some s ∧
        (Dict.mk (some t) (some (b.pool.take b.dataSize))).getData i = .ok s := by
  have hfl : FileLines (ls.flatMap fun l => l ++ b!"\n") ls := by
    clear hs
    induction ls with
    | nil => exact .nil
    | cons l ls ih =>
      rw [List.flatMap_cons, List.append_assoc, List.singleton_append]
      exact .line l _ ls (fun h => ((hl l (by simp)).2 10 h).2.1 rfl) (hl l (by simp)).1 (ih fun l h => hl l (by simp [h]))
  have hby : ∀ b ∈ ls.flatMap (fun l => l ++ b!"\n"), b < 256 ∧ b ≠ 0 := by
    intro b hb
    obtain ⟨l, hm, hb⟩ := List.mem_flatMap.mp hb
    rcases List.mem_append.mp hb with hb | hb
    · exact ⟨((hl l hm).2 b hb).1, ((hl l hm).2 b hb).2.2⟩
    · cases List.mem_singleton.mp hb; decide
  have hw : sys.canWrite outp = true := by
    by_contra hn
    rw [C77_output sys junk fs inp outp _ hs (by simpa using hn)] at h
    cases h
  have hall := (C77_silent sys junk fs inp outp _ hne hw hs (fun b hb => (hby b hb).1) ls hfl).mp ⟨fs', h⟩
  have hall : ∀ l ∈ ls, ∃ e, LineAs l e ∧ ThaiWord e.word := fun l hm => by
    have : beforeNul l = l := List.takeWhile_eq_self_iff.mpr fun b hb => by simpa using ((hl l hm).2 b hb).2.2
    rw [← this]
    exact hall l hm
  obtain ⟨ls1, good, rest, es, hls1, hu, rfl, h2, h3, h5, h4⟩ := C32_exact junk (ls.flatMap fun l => l ++ b!"\n")
    (fun h => (hby 0 h).2 rfl) (fun b hb => (hby b hb).1)
  cases hu ls hfl
  have hr : rest = [] := by
    cases rest with
    | nil => rfl
    | cons l rest =>
      obtain ⟨e, he, -⟩ := hall l (by simp)
      exact absurd he (h3 l rfl e)
  subst hr
  rw [List.append_nil] at *
  have hsd : fs.set outp [] inp = some (good.flatMap fun l => l ++ b!"\n") := by rw [Files.set, if_neg hne, hs]
  have hok : ∀ e ∈ es, ThaiWord e.word := by
    by_contra hn
    push Not at hn
    obtain ⟨text, ht⟩ := genDictT_ok (h5 hn)
    simp only [Gen.main, hs, hw, if_true, hsd, Option.getD_some, ht, ok_bind, pure_eq] at h
    cases h
  obtain ⟨t, b, hg, h6, h7⟩ := h4 hok
  obtain ⟨text, ht⟩ := genDictT_ok hg
  simp only [Gen.main, hs, hw, if_true, hsd, Option.getD_some, ht, ok_bind, pure_eq, ha, ok.injEq, Ended.mk.injEq] at h
  refine ⟨es, t, b, h2, ?_, h6, h7⟩
  rw [← h.1, Files.set, if_pos rfl]

/-! ## The hypotheses are met -/

/-- A word outside the Thai block: what is said about it. -/
example : Refusal ⟨[97, 0x1f600], b!"x"⟩
    b!"Failed to store word of length 2, data 'x'\nWord: [00000061,0001f600]\n" := by
  refine ⟨[b!"00000061", b!"0001f600"], .cons ?_ (.cons ?_ .nil), by decide +kernel⟩
  · exact ⟨[0, 0, 0, 0, 0, 0, 6, 1], rfl, by decide, rfl, by repeat' constructor⟩
  · exact ⟨[0, 0, 0, 1, 15, 6, 0, 0], rfl, by decide, rfl, by repeat' constructor⟩

/-- Two lines that meet the hypotheses of `C77_partial`. -/
example : (∀ l ∈ [b!"ก\tk_a_1", b!"ขา\tKAA_0"], l.length ≤ 254 ∧ ∀ b ∈ l, b < 256 ∧ b ≠ 10 ∧ b ≠ 0) ∧
    ∃ (sys : Sys) (fs fs' : Files), (∀ s, sys.arrive s = s) ∧
      fs b!"s" = some ([b!"ก\tk_a_1", b!"ขา\tKAA_0"].flatMap fun l => l ++ b!"\n") ∧
      Gen.main sys 0 fs [b!"s", b!"d"] = .ok ⟨fs', 0, [], []⟩ := by
  refine ⟨by decide, ?_⟩
  obtain ⟨t, b, hg, -⟩ := success_of (junk := 0) (f := [b!"ก\tk_a_1", b!"ขา\tKAA_0"].flatMap fun l => l ++ b!"\n")
    (fun _ _ => true) (by decide +kernel)
  refine ⟨⟨fun _ => true, fun _ => [], id⟩, fun q => if q = b!"s" then some ([b!"ก\tk_a_1", b!"ขา\tKAA_0"].flatMap fun l => l ++ b!"\n") else none,
    Files.set (Files.set (fun q => if q = b!"s" then some ([b!"ก\tk_a_1", b!"ขา\tKAA_0"].flatMap fun l => l ++ b!"\n") else none) b!"d" []) b!"d" (dataBankWrite b),
    fun _ => rfl, rfl, ?_⟩
  have hsd : Files.set (fun q => if q = b!"s" then some ([b!"ก\tk_a_1", b!"ขา\tKAA_0"].flatMap fun l => l ++ b!"\n") else none)
      b!"d" [] b!"s" = some ([b!"ก\tk_a_1", b!"ขา\tKAA_0"].flatMap fun l => l ++ b!"\n") := by
    rw [Files.set, if_neg (by decide), if_pos rfl]
  simp only [Gen.main, if_true, hsd, Option.getD_some, hg, ok_bind, pure_eq]
  rfl

end Thpronun
