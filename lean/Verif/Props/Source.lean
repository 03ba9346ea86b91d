import Verif.Props.Words
import Verif.Props.GenMain

/-! # Property C73: of a dictionary only its entries count -/

namespace Thpronun
open Res Spec Cli

variable {ct : CType}

/-- Parsers whose dictionaries agree on the parts of a word do the same with it, whatever that is. -/
theorem C73_parse (hct : ct.Ok) {look look' : List Nat → Option Str} {p p' : Parser} (hd : Holds p.exceptDict look)
    (hd' : Holds p'.exceptDict look') (hb : p.thBrk = p'.thBrk) (word : Str)
    (h : ∀ w, fromBytes word = .ok w → ∀ q m, look (piece w q m) = look' (piece w q m)) :
    p.parseWord ct word = p'.parseWord ct word := by
  cases hw : fromBytes word with
  | ok w =>
    rw [C37_word p word w hw, C37_word p' word w hw, hb]
    exact C42_local hct hd hd' fun q _ _ m _ => h w hw q m
  | throw e => unfold Parser.parseWord; rw [hw]; rfl
  | ub => unfold Parser.parseWord; rw [hw]; rfl
  | diverge => unfold Parser.parseWord; rw [hw]; rfl

/-- A dictionary file made from a source with these entries. -/
structure MadeFrom (f : Option DictFile) (es : List DEntry) : Prop where
  some : es ≠ []
  good : ∀ e ∈ es, GoodEntry e
  size : (es.map fun e => e.data.length + 1).sum < 0x80000000
  made : ∃ junk r, Gen.genDict junk (es.flatMap entryLine) = .ok r ∧ f = r.file

theorem MadeFrom.loads {f : Option DictFile} {es : List DEntry} (h : MadeFrom f es) (p0 : Parser) :
    ∃ p, p0.loadExceptDict f = .ok (p, true) ∧ p.thBrk = p0.thBrk ∧ Holds p.exceptDict (lastData es) := by
  obtain ⟨junk, r, h1, rfl⟩ := h.made
  obtain ⟨t, b, p, k1, k2, k3, k4⟩ := holds_generated junk es h.some h.good h.size p0
  rw [h1] at k1
  cases k1
  exact ⟨p, k2, k3, k4⟩

/-- Two runs with the same arguments and input whose dictionaries were made from sources that agree on all parts of the
words: they write the same to both streams and end in the same way. -/
theorem C73_run (hct : ct.Ok) (prog version dflt : Str) (brk : U16Str → List Int) (files files' : Option Str → Option DictFile)
    (args : List Str) (stdin : Str) (r : Cli.Run) (hr : plan args (getLines stdin) = .ok (.inr r)) (es es' : List DEntry)
    (hf : MadeFrom (files r.dictPath) es) (hf' : MadeFrom (files' r.dictPath) es')
    (h : ∀ word ∈ r.words, ∀ w, fromBytes word = .ok w → ∀ q m, lastData es (piece w q m) = lastData es' (piece w q m)) :
    mainS prog version dflt ct brk files args stdin = mainS prog version dflt ct brk files' args stdin := by
  obtain ⟨p, h1, h2, h3⟩ := hf.loads (Parser.new brk r.isBreakWords)
  obtain ⟨p', h1', h2', h3'⟩ := hf'.loads (Parser.new brk r.isBreakWords)
  rw [mainS_run _ _ _ _ _ _ _ _ hr h1, mainS_run _ _ _ _ _ _ _ _ hr h1',
    wordsS_congr r.outputs r.words fun x hx => C73_parse hct h3 h3' (h2.trans h2'.symm) x (h x hx)]

/-- Sources with the same entries in another order, no word twice. -/
theorem C73_order {es es' : List DEntry} (hp : es.Perm es') (hn : (es.map DEntry.word).Nodup) : lastData es = lastData es' := by
  have key : ∀ {l l' : List DEntry}, l.Perm l' → (l.map DEntry.word).Nodup → ∀ v,
      l.find? (fun e => decide (e.word = v)) = l'.find? fun e => decide (e.word = v) := by
    intro l l' h
    induction h with
    | nil => exact fun _ _ => rfl
    | cons a _ ih =>
      intro hn v
      rw [List.find?_cons, List.find?_cons, ih (List.nodup_cons.mp hn).2 v]
    | swap a b l =>
      intro hn v
      have hab : b.word ≠ a.word := fun e => (List.nodup_cons.mp hn).1 (by simp [e])
      rw [List.find?_cons, List.find?_cons, List.find?_cons, List.find?_cons]
      by_cases ha : a.word = v <;> by_cases hb : b.word = v <;> simp [ha, hb]
      exact absurd (hb.trans ha.symm) hab
    | trans h1 _ ih1 ih2 => exact fun hn v => (ih1 hn v).trans (ih2 ((h1.map DEntry.word).nodup_iff.mp hn) v)
  funext v
  rw [lastData, lastData, key ((List.reverse_perm es).trans (hp.trans (List.reverse_perm es').symm))
    (by rw [List.map_reverse]; exact List.nodup_reverse.mpr hn)]

/-- An entry that a later one for the same word replaces may as well be left out. -/
theorem C73_replaced (pre post : List DEntry) (e : DEntry) (h : ∃ e' ∈ post, e'.word = e.word) :
    lastData (pre ++ e :: post) = lastData (pre ++ post) := by
  obtain ⟨e', he', hw⟩ := h
  funext v
  unfold lastData
  rw [List.reverse_append, List.reverse_cons, List.reverse_append, List.append_assoc, List.find?_append, List.find?_append,
    List.find?_append]
  cases hf : post.reverse.find? fun e => decide (e.word = v) with
  | some a => rfl
  | none =>
    have := List.find?_eq_none.mp hf e' (by simpa using he')
    have hv : e.word ≠ v := by rw [← hw]; simpa using this
    simp [hv]

/-- An entry whose word is no part of a text does not count for it. -/
theorem C73_absent (pre post : List DEntry) (e : DEntry) (w : U16Str) (h : ∀ q m, piece w q m ≠ e.word) (q m : Nat) :
    lastData (pre ++ e :: post) (piece w q m) = lastData (pre ++ post) (piece w q m) := by
  have hv : e.word ≠ piece w q m := fun he => h q m he.symm
  unfold lastData
  simp [List.find?_append, List.find?_cons, hv]

/-- From the sources to the outputs: the generator is run on two sources with the same entries in different order, no word
twice, in two directories that are otherwise alike; then `thpronun` does the same in both. -/
theorem C73_programs (hct : ct.Ok) (sys : Gen.Sys) (ha : ∀ s, sys.arrive s = s) (parse : Str → DictFile)
    (hread : ReadsBack sys parse) (junk junk' : Byte) (fs fs' : Gen.Files) (inp outp : Str) (hne : inp ≠ outp)
    (hw : sys.canWrite outp = true) (es es' : List DEntry) (hes : es ≠ []) (hg : ∀ e ∈ es, GoodEntry e)
    (hsz : (es.map fun e => e.data.length + 1).sum < 0x80000000) (hp : es.Perm es') (hn : (es.map DEntry.word).Nodup)
    (hs : fs inp = some (es.flatMap entryLine)) (hs' : fs' inp = some (es'.flatMap entryLine))
    (prog version dflt : Str) (brk : U16Str → List Int) (args : List Str) (stdin : Str) (r : Cli.Run)
    (hr : plan args (getLines stdin) = .ok (.inr r)) (hpath : r.dictPath = some outp) :
    ∃ e e', Gen.main sys junk fs [inp, outp] = .ok e ∧ Gen.main sys junk' fs' [inp, outp] = .ok e' ∧ e.status = 0 ∧
      e'.status = 0 ∧
      mainS prog version dflt ct brk (fun q => (e.files (q.getD dflt)).map parse) args stdin =
        mainS prog version dflt ct brk (fun q => (e'.files (q.getD dflt)).map parse) args stdin := by
  have main : ∀ (junk : Byte) (fs : Gen.Files) (es : List DEntry), es ≠ [] → (∀ e ∈ es, GoodEntry e) →
      (es.map fun e => e.data.length + 1).sum < 0x80000000 → fs inp = some (es.flatMap entryLine) →
      ∃ e, Gen.main sys junk fs [inp, outp] = .ok e ∧ e.status = 0 ∧
        MadeFrom ((e.files outp).map parse) es := by
    intro junk fs es hes hg hsz hs
    obtain ⟨t, bank, h1, -, -⟩ := C31_lookup junk es hes hg
    rcases C59_partial sys ha junk fs inp outp hne with ⟨source, t', bank', _, k1, k2, k3⟩ | ⟨_, _, _, k | k⟩ |
        ⟨_, _, _, k1, k2, _⟩ | ⟨_, k1, _, k2, _⟩
    · rw [hs] at k1; cases k1
      refine ⟨_, k3, rfl, hes, hg, hsz, junk, _, k2, ?_⟩
      simp only [Gen.Files.set, if_true, Option.map_some, Gen.GenResult.file]
      rw [hread]
    · rw [hs] at k; cases k
    · rw [hw] at k; cases k
    · rw [hs] at k1; cases k1
      rw [h1] at k2; cases k2
    · rw [hs] at k1; cases k1
      rw [h1] at k2; cases k2
  obtain ⟨e, m1, m2, m3⟩ := main junk fs es hes hg hsz hs
  obtain ⟨e', m1', m2', m3'⟩ := main junk' fs' es' (fun h => hes (by rw [h] at hp; exact hp.eq_nil))
    (fun x hx => hg x (hp.mem_iff.mpr hx)) (by rwa [← (hp.map fun e : DEntry => e.data.length + 1).sum_nat]) hs'
  refine ⟨e, e', m1, m1', m2, m2', C73_run hct _ _ _ _ _ _ _ _ r hr es es' (by simpa [hpath] using m3)
    (by simpa [hpath] using m3') fun _ _ _ _ q m => ?_⟩
  rw [C73_order hp hn]

/-- Two orders of two entries, and arguments that use the dictionary. -/
example : [(⟨u!"ก", b!"k_a_1"⟩ : DEntry), ⟨u!"ขา", b!"K_a_0"⟩].Perm [⟨u!"ขา", b!"K_a_0"⟩, ⟨u!"ก", b!"k_a_1"⟩] ∧
    ([(⟨u!"ก", b!"k_a_1"⟩ : DEntry), ⟨u!"ขา", b!"K_a_0"⟩].map DEntry.word).Nodup ∧
    (∀ e ∈ [(⟨u!"ก", b!"k_a_1"⟩ : DEntry), ⟨u!"ขา", b!"K_a_0"⟩], GoodEntry e) ∧
    (∃ r, plan [b!"-dd", b!"ก"] (getLines []) = .ok (.inr r) ∧ r.dictPath = some b!"d" ∧ r.words = [b!"ก"]) :=
  ⟨List.Perm.swap _ _ _, by decide +kernel, by decide +kernel,
    ⟨⟨some b!"d", true, [.delim ch!"t" ch!"-", .roman, .delim ch!"p" ch!" "], [b!"ก"]⟩, by decide +kernel, rfl, rfl⟩⟩

/-- A word that is no part of a text. -/
example : ∀ q m, piece u!"กา" q m ≠ u!"ขา" := by
  intro q m h
  have : (0xe02 : Nat) ∈ piece u!"กา" q m := by rw [h]; decide
  have := List.mem_of_mem_drop (List.mem_of_mem_take this)
  revert this
  decide

end Thpronun
