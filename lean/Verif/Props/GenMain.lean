import Verif.Lemmas.GenText
import Verif.Props.Dict
import Verif.Props.Streams
import Mathlib.Logic.Equiv.List

/-! # The generator as a program: C59 -/

namespace Thpronun
open Res Spec Gen

/-- Reading a dictionary file back undoes `trie_fwrite` (trusted of libdatrie). -/
def ReadsBack (sys : Sys) (parse : Str → DictFile) : Prop :=
  ∀ t rest, parse (sys.trieBytes t ++ rest) = ⟨some t, rest⟩

/-! ## C59: all or nothing -/

/-- A source with a word outside the Thai block makes the generator fail after the old dictionary has been emptied. -/
theorem C59_false (sys : Sys) (fs : Files) (old : Str) (hw : sys.canWrite b!"d" = true) (hs : fs b!"s" = some b!"a\tb\n")
    (hd : fs b!"d" = some old) :
    ∃ fs' err, Gen.main sys 0 fs [b!"s", b!"d"] = .ok ⟨fs', 1, [], err⟩ ∧ fs' b!"d" = some [] := by
  obtain ⟨text, hg⟩ := genDictT_ok (junk := 0) (f := b!"a\tb\n") (r := .failure) (by decide +kernel)
  have hsd : fs.set b!"d" [] b!"s" = some b!"a\tb\n" := by
    rw [Files.set, if_neg (by decide), hs]
  refine ⟨fs.set b!"d" [], text ++ b!"Fail to generate dictionary\n", ?_, by rw [Files.set, if_pos rfl]⟩
  simp only [Gen.main, hs, hw, if_true, hsd, Option.getD_some, hg, ok_bind]
  rfl

/-- Given the same file twice the generator overwrites it by an empty dictionary, whatever it was, and reports
success. -/
theorem C59_same_false (sys : Sys) (fs : Files) (path source : Str) (hw : sys.canWrite path = true)
    (hs : fs path = some source) :
    ∃ fs' b, Gen.main sys 0 fs [path, path] = .ok ⟨fs', 0, [], []⟩ ∧ genDict 0 [] = .ok (.success [] b) ∧
      fs' path = some (sys.arrive (sys.trieBytes [] ++ dataBankWrite b)) := by
  have hp : fs.set path [] path = some [] := by rw [Files.set, if_pos rfl]
  have hg : genDict 0 [] = .ok (.success [] (newDataBank 0)) := rfl
  have hgt : genDictT 0 [] = .ok (.success [] (newDataBank 0), []) := rfl
  refine ⟨(fs.set path []).set path (sys.arrive (sys.trieBytes [] ++ dataBankWrite (newDataBank 0))), newDataBank 0, ?_,
    hg, ?_⟩
  · simp only [Gen.main, hs, hw, if_true, hp, Option.getD_some, hgt, ok_bind]
    rfl
  · rw [Files.set, if_pos rfl]

/-- When nothing can be stored any more the generator still reports success. -/
theorem C59_disk_false (sys : Sys) (fs : Files) (hw : sys.canWrite b!"d" = true) (ha : ∀ s, sys.arrive s = [])
    (hs : fs b!"s" = some (entryLine ⟨u!"ก", b!"k_a_1"⟩)) :
    ∃ fs', Gen.main sys 0 fs [b!"s", b!"d"] = .ok ⟨fs', 0, [], []⟩ ∧ fs' b!"d" = some [] := by
  have hsd : fs.set b!"d" [] b!"s" = fs b!"s" := by rw [Files.set, if_neg (by decide)]
  have hg : ∃ t b, genDictT 0 (entryLine ⟨u!"ก", b!"k_a_1"⟩) = .ok (.success t b, []) := by
    have : (match genDictT 0 (entryLine ⟨u!"ก", b!"k_a_1"⟩) with | .ok (.success _ _, []) => true | _ => false) = true := by
      decide +kernel
    split at this
    · rename_i t b h; exact ⟨t, b, h⟩
    · cases this
  obtain ⟨t, b, hg⟩ := hg
  refine ⟨(fs.set b!"d" []).set b!"d" [], ?_, ?_⟩
  · simp only [Gen.main, hs, hw, if_true, hsd, Option.getD_some, hg, ok_bind, ha]
    rfl
  · rw [Files.set, if_pos rfl]

/-- With two different paths and room on the disk: the generator ends with status 0, and then the output is the
dictionary of the source and all other files are as before; or with status 1, and then all files are as before except that
the output may be empty, namely if the source was refused. It is undefined only on a source with a NUL byte.
(Missing: that the output is kept when the source is refused, equal paths, a full disk; see the counterexamples.) -/
theorem C59_partial (sys : Sys) (ha : ∀ s, sys.arrive s = s) (junk : Byte) (fs : Files) (inp outp : Str)
    (hne : inp ≠ outp) :
    (∃ source t b err, fs inp = some source ∧ genDict junk source = .ok (.success t b) ∧
      Gen.main sys junk fs [inp, outp] = .ok ⟨fs.set outp (sys.trieBytes t ++ dataBankWrite b), 0, [], err⟩) ∨
    (∃ err, err ≠ [] ∧ Gen.main sys junk fs [inp, outp] = .ok ⟨fs, 1, [], err⟩ ∧ (fs inp = none ∨ sys.canWrite outp = false)) ∨
    (∃ err source, err ≠ [] ∧ fs inp = some source ∧ genDict junk source = .ok .failure ∧
      Gen.main sys junk fs [inp, outp] = .ok ⟨fs.set outp [], 1, [], err⟩) ∨
    (∃ source, fs inp = some source ∧ 0 ∈ source ∧ genDict junk source = .ub ∧ Gen.main sys junk fs [inp, outp] = .ub) := by
  cases hs : fs inp with
  | none =>
    right; left
    refine ⟨b!"Fail to open input file \"" ++ inp ++ b!"\" for reading.\n", by simp, ?_, .inl rfl⟩
    simp only [Gen.main, hs]
  | some source =>
    have hsd : fs.set outp [] inp = some source := by rw [Files.set, if_neg hne, hs]
    cases hw : sys.canWrite outp with
    | false =>
      right; left
      refine ⟨b!"Fail to open output file \"" ++ outp ++ b!"\" for writing.\n", by simp, ?_, .inr rfl⟩
      simp only [Gen.main, hs, hw]
      rfl
    | true =>
      rcases C32_defined junk source with ⟨r, hr⟩ | ⟨hu, h0⟩
      · cases r with
        | success t b =>
          left
          obtain ⟨text, ht⟩ := genDictT_ok hr
          refine ⟨source, t, b, text, rfl, hr, ?_⟩
          simp only [Gen.main, hs, hw, if_true, hsd, Option.getD_some, ht, ok_bind, ha, pure_eq]
          congr 2
          funext q
          by_cases hq : q = outp <;> simp [Files.set, hq]
        | failure =>
          right; right; left
          obtain ⟨text, ht⟩ := genDictT_ok hr
          refine ⟨text ++ b!"Fail to generate dictionary\n", source, by simp, rfl, hr, ?_⟩
          simp only [Gen.main, hs, hw, if_true, hsd, Option.getD_some, ht, ok_bind, pure_eq]
      · right; right; right
        refine ⟨source, rfl, h0, hu, ?_⟩
        simp only [Gen.main, hs, hw, if_true, hsd, Option.getD_some, genDictT_ub hu]
        rfl

/-- Only the second path can change, and without exactly two arguments nothing does. -/
theorem C59_others (sys : Sys) (junk : Byte) (fs : Files) (args : List Str) (r : Ended)
    (h : Gen.main sys junk fs args = .ok r) (q : Str) (hq : ∀ inp, args ≠ [inp, q]) : r.files q = fs q := by
  unfold Gen.main at h
  split at h
  · rename_i inp outp
    have hqo : q ≠ outp := fun h => hq inp (by rw [h])
    split at h
    · cases h; rfl
    · split at h
      · simp only [bind_eq_ok] at h
        obtain ⟨g, -, h⟩ := h
        split at h
        · cases h; simp [Files.set, hqo]
        · cases h; simp [Files.set, hqo]
      · cases h; rfl
  · cases h; rfl

/-- From the source to the program: a source of good entry lines, generated to another path, is loaded by a later run of
`thpronun` with this path, which has nothing to say on the standard error and whose parser finds exactly the entries. -/
theorem C59_pipeline (sys : Sys) (ha : ∀ s, sys.arrive s = s) (parse : Str → DictFile) (hread : ReadsBack sys parse)
    (junk : Byte) (fs : Files) (inp outp : Str) (hne : inp ≠ outp) (hw : sys.canWrite outp = true) (es : List DEntry)
    (hes : es ≠ []) (hg : ∀ e ∈ es, GoodEntry e) (hs : fs inp = some (es.flatMap entryLine))
    (hsz : (es.map fun e => e.data.length + 1).sum < 0x80000000) (ct : CType) (brk : U16Str → List Int) (b : Bool)
    (files : Option Str → Option DictFile) :
    ∃ fs', Gen.main sys junk fs [inp, outp] = .ok ⟨fs', 0, [], []⟩ ∧
      (files (some outp) = (fs' outp).map parse →
        ∃ p, (Parser.new brk b).loadExceptDict (files (some outp)) = .ok (p, true) ∧ Holds p.exceptDict (lastData es) ∧
          p.thBrk = (Parser.new brk b).thBrk) := by
  obtain ⟨t, bank, h1, h2, h3⟩ := C31_lookup junk es hes hg
  rw [← h2] at hsz
  obtain ⟨d, hd, hrep⟩ := h3 hsz Dict.empty
  rcases C59_partial sys ha junk fs inp outp hne with ⟨source, t', bank', text, k1, k2, k3⟩ | ⟨_, _, _, k | k⟩ | ⟨_, _, _, k1, k2, _⟩ |
      ⟨_, k1, _, k2, _⟩
  · rw [hs] at k1; cases k1
    rw [h1] at k2; cases k2
    obtain ⟨text', ht⟩ := genDictT_ok h1
    have htext : text = [] := by
      have hsd : fs.set outp [] inp = some (es.flatMap entryLine) := by rw [Files.set, if_neg hne, hs]
      have : Gen.main sys junk fs [inp, outp] = .ok ⟨(fs.set outp []).set outp (sys.trieBytes t ++ dataBankWrite bank), 0, [], text'⟩ := by
        simp only [Gen.main, hs, hw, if_true, hsd, Option.getD_some, ht, ok_bind, ha, pure_eq]
      rw [k3] at this
      simp only [ok.injEq, Ended.mk.injEq] at this
      rw [this.2.2.2]
      exact genLoopT_lines junk es hg _ _ _ ht
    rw [htext] at k3
    refine ⟨_, k3, fun hf => ?_⟩
    rw [hf, Files.set, if_pos rfl, Option.map_some, hread]
    refine ⟨⟨some d, (Parser.new brk b).thBrk⟩, ?_, hrep, rfl⟩
    rw [Parser.loadExceptDict, hd]
    rfl
  · rw [hs] at k; cases k
  · rw [hw] at k; cases k
  · rw [hs] at k1; cases k1
    rw [h1] at k2; cases k2
  · rw [hs] at k1; cases k1
    rw [h1] at k2; cases k2

/-- The hypotheses of `C59_partial`, `C59_pipeline` and the counterexamples: a system that stores a trie under its number
in an enumeration of all tries. -/
example : ∃ (sys : Sys) (parse : Str → DictFile) (fs : Files), (∀ s, sys.arrive s = s) ∧ ReadsBack sys parse ∧
    sys.canWrite b!"d" = true ∧ fs b!"s" = some ([⟨u!"ก", b!"k_a_1"⟩, ⟨u!"ขา", b!"K_a_0"⟩].flatMap entryLine) ∧
    (∀ e ∈ [(⟨u!"ก", b!"k_a_1"⟩ : DEntry), ⟨u!"ขา", b!"K_a_0"⟩], GoodEntry e) :=
  ⟨⟨fun _ => true, fun t => [Encodable.encode (α := List (List Nat × Int)) t], id⟩,
    fun s => ⟨(s.head?.bind fun n => Encodable.decode (α := List (List Nat × Int)) n), s.tail⟩,
    fun q => if q = b!"s" then some ([⟨u!"ก", b!"k_a_1"⟩, ⟨u!"ขา", b!"K_a_0"⟩].flatMap entryLine) else none,
    fun _ => rfl, fun t rest => by simp, rfl, rfl, by decide +kernel⟩

end Thpronun
