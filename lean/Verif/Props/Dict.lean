import Verif.Lemmas.GenFile

/-! # Properties C29–C32, C34, C35: dictionary files

C33 is with the parser, in `Verif/Props/Parser.lean`. -/

namespace Thpronun
open Spec Gen

private theorem exists_ok {α} {r : Res α} (P : α → Bool) (h : (match r with | .ok a => P a | _ => false) = true) :
    ∃ a, r = .ok a ∧ P a = true := by
  cases r with
  | ok a => exact ⟨a, rfl, h⟩
  | _ => cases h

private theorem exists_success {r : Res GenResult} (P : Trie → DataBank → Bool)
    (h : (match r with | .ok (.success t b) => P t b | _ => false) = true) :
    ∃ t b, r = .ok (.success t b) ∧ P t b = true := by
  cases r with
  | ok a =>
    cases a with
    | success t b => exact ⟨t, b, rfl, h⟩
    | failure => cases h
  | _ => cases h

private theorem lines_length (es : List DEntry) : es.length ≤ (es.flatMap entryLine).length := by
  induction es with
  | nil => simp
  | cons e es ih =>
    rw [List.flatMap_cons, List.length_append, List.length_cons]
    have : 1 ≤ (entryLine e).length := by simp [entryLine]; omega
    omega

/-! ## C29: size field -/

/-- Reading back four bytes written, whatever follows. -/
theorem C29_roundtrip (v : Int) (h : -2147483648 ≤ v ∧ v ≤ 2147483647) (r : Str) :
    Dict.readInt32 (fileWriteInt32 v ++ r) = some (v, r) := readInt32_write v (by omega) r

/-- The bytes are bytes. -/
theorem C29_bytes (v : Int) : (fileWriteInt32 v).length = 4 ∧ ∀ b ∈ fileWriteInt32 v, b < 256 := by
  refine ⟨rfl, fun b hb => ?_⟩
  simp only [fileWriteInt32, List.mem_cons, List.not_mem_nil, or_false] at hb
  rcases hb with h | h | h | h <;> (rw [h]; exact Nat.mod_lt _ (by decide))

example : fileWriteInt32 (-2) = [255, 255, 255, 254] ∧ Dict.readInt32 [255, 255, 255, 254, 7] = some (-2, [7]) := by
  decide +kernel

/-! ## C30: data bank -/

/-- Adding strings one after the other; the indices returned, in order. -/
def addAll (junk : Byte) : DataBank → List Str → Res (DataBank × List Nat)
  | b, [] => .ok (b, [])
  | b, d :: ds => do
    let (b, i) ← dataBankAddData junk b d
    let (b, is) ← addAll junk b ds
    pure (b, i :: is)

private theorem addAll_spec (junk : Byte) (ds : List Str) (hd : ∀ d ∈ ds, 0 ∉ d) (b : DataBank) (old : List Str)
    (h : BankInv b old) : ∃ b' is new, addAll junk b ds = .ok (b', is) ∧ BankInv b' new ∧
      is.length = ds.length ∧ is.Pairwise (· < ·) ∧ (∀ i ∈ is, b.dataSize ≤ i) ∧
      (∃ x, bankOf new = bankOf old ++ x) ∧
      ∀ (k : Nat) i d, is[k]? = some i → ds[k]? = some d → i < b'.dataSize ∧
        ∀ r, Dict.cString ((bankOf new ++ r).drop i) = .ok d := by
  induction ds generalizing b old with
  | nil => exact ⟨b, [], old, rfl, h, rfl, .nil, by simp, ⟨[], by simp⟩, by simp⟩
  | cons d ds ih =>
    obtain ⟨b1, h1, h2, h3⟩ := addData_spec junk b old d h
    obtain ⟨b', is, new, i1, i2, i3, i4, i5, ⟨x, i6⟩, i7⟩ :=
      ih (fun d hd' => hd d (by simp [hd'])) b1 (d :: old) h2
    refine ⟨b', b.dataSize :: is, new, ?_, i2, by simp [i3], ?_, ?_, ?_, ?_⟩
    · rw [addAll, h1]; simp only [Res.ok_bind, i1]; rfl
    · refine List.pairwise_cons.mpr ⟨fun i hi => ?_, i4⟩
      have := i5 i hi; omega
    · intro i hi
      rcases List.mem_cons.mp hi with rfl | hi
      · exact Nat.le_refl _
      · have := i5 i hi; omega
    · exact ⟨(d ++ [0]) ++ x, by rw [i6, bankOf, List.append_assoc]⟩
    · intro k i d' hi hd'
      cases k with
      | zero =>
        simp only [List.getElem?_cons_zero, Option.some.injEq] at hi hd'
        subst hi; subst hd'
        have hl : b1.dataSize ≤ b'.dataSize := by
          rw [← i2.size, i6, ← h2.size, List.length_append]; omega
        refine ⟨by omega, fun r => ?_⟩
        rw [i6, bankOf, List.append_assoc, List.append_assoc, ← h.size, List.drop_left, List.append_assoc]
        exact cString_append _ _ (hd d (by simp))
      | succ k => exact i7 k i d' hi hd'

/-- All additions succeed without leaving the pool, indices increase strictly, the used size stays
within the pool, and every index reads back its own string, within the part written to the file. -/
theorem C30_bank (junk : Byte) (ds : List Str) (hd : ∀ d ∈ ds, 0 ∉ d) :
    ∃ b is, addAll junk (newDataBank junk) ds = .ok (b, is) ∧ b.dataSize ≤ b.poolSize ∧
      is.length = ds.length ∧ is.Pairwise (· < ·) ∧
      ∀ (k : Nat) i d, is[k]? = some i → ds[k]? = some d →
        i < b.dataSize ∧ Dict.cString ((b.pool.take b.dataSize).drop i) = .ok d := by
  obtain ⟨b, is, new, h1, h2, h3, h4, _, _, h5⟩ := addAll_spec junk ds hd _ [] (bankInv_new junk)
  refine ⟨b, is, h1, h2.1, h3, h4, fun k i d hi hd => ?_⟩
  obtain ⟨h6, h7⟩ := h5 k i d hi hd
  exact ⟨h6, by rw [h2.2]; simpa using h7 []⟩

/-- Reading through the pool pointer itself, as the generator would, gives the same. -/
theorem C30_earlier (junk : Byte) (b : DataBank) (old : List Str) (d : Str) (h : BankInv b old) :
    ∃ b', dataBankAddData junk b d = .ok (b', b.dataSize) ∧ b'.pool.take b.dataSize = b.pool.take b.dataSize := by
  obtain ⟨b', h1, h2, h3⟩ := addData_spec junk b old d h
  refine ⟨b', h1, ?_⟩
  have e : b'.pool.take b.dataSize = (b'.pool.take b'.dataSize).take b.dataSize := by
    rw [List.take_take, Nat.min_eq_left (by omega)]
  rw [e, h2.2, bankOf, ← h.size, List.take_left, h.size, h.2]

example : ∃ b is, addAll 7 (newDataBank 7) [b!"k_a_0@1", b!"", b!"abc"] = .ok (b, is) ∧ is = [0, 8, 9] ∧
    b.dataSize = 13 :=
by
  obtain ⟨⟨b, is⟩, h, hp⟩ := exists_ok (r := addAll 7 (newDataBank 7) [b!"k_a_0@1", b!"", b!"abc"])
    (fun p => decide (p.2 = [0, 8, 9]) && decide (p.1.dataSize = 13)) (by decide +kernel)
  exact ⟨b, is, h, by simpa using hp⟩

/-! ## C31: lookup -/

private theorem bankOf_length (ds : List Str) : (bankOf ds).length = (ds.map fun d => d.length + 1).sum := by
  induction ds with
  | nil => rfl
  | cons d ds ih => simp [bankOf, ih]; omega

/-- From source file to lookup: a file of good lines generates a dictionary that opens and in which
successive `findNext` calls at any position of any text report exactly the words that begin there,
shortest first, each with the data of its last line. -/
theorem C31_lookup (junk : Byte) (es : List DEntry) (hne : es ≠ []) (hg : ∀ e ∈ es, GoodEntry e) :
    ∃ t b, genDict junk (es.flatMap entryLine) = .ok (.success t b) ∧
      b.dataSize = (es.map fun e => e.data.length + 1).sum ∧
      (b.dataSize < 0x80000000 → ∀ d0, ∃ d,
        Dict.open_ d0 (some ⟨some t, dataBankWrite b⟩) = .ok (d, true) ∧
        ∀ text pos, pos ≤ text.length →
          Reports (Match.new text pos d) (prefixMatches (lastData es) text pos)) := by
  obtain ⟨t, b, h1, h2⟩ := genLoop_lines junk es hg ((es.flatMap entryLine).length + 1)
    (by have := lines_length es; omega) [] _ [] (genInv_new junk)
  rw [List.append_nil] at h2
  refine ⟨t, b, h1, ?_, fun hsz d0 => ⟨_, open_gen h2 (by simpa using hne) hsz d0, fun text pos hpos => ?_⟩⟩
  · rw [← h2.bank.size, bankOf_length, List.map_reverse, List.map_reverse, List.sum_reverse, List.map_map]
    rfl
  have := reports _ _ (genInv_look h2) text pos 0 (by omega)
  simp only [newest_eq] at this
  exact this

/-- What a successful run on any file whatsoever read: the entries are those of the lines read, and
lookups are correct with respect to them. -/
theorem C31_any_file (junk : Byte) (file : Str) (t : Trie) (b : DataBank)
    (h : genDict junk file = .ok (.success t b)) :
    ∃ es : List DEntry, Run file es ∧ ∀ text pos, pos ≤ text.length →
      Reports (Match.new text pos ⟨some t, some (b.pool.take b.dataSize)⟩)
        (prefixMatches (lastData es) text pos) := by
  obtain ⟨es, h1, h2⟩ := genLoop_run (genInv_new junk) h
  rw [List.append_nil] at h2
  refine ⟨es, h1, fun text pos hpos => ?_⟩
  have := reports _ _ (genInv_look h2) text pos 0 (by omega)
  simp only [newest_eq] at this
  exact this

/-- The same in terms of the file: a run on any file without NUL that succeeds makes a dictionary in which lookups report the words
of the lines before the first one that is no entry. -/
theorem C31_file (junk : Byte) (file : Str) (h0 : 0 ∉ file) (hb : ∀ b ∈ file, b < 256) (t : Trie) (b : DataBank)
    (h : genDict junk file = .ok (.success t b)) :
    ∃ good rest es, FileLines file (good ++ rest) ∧ List.Forall₂ LineAs good es ∧
      (∀ l ∈ rest.head?, ∀ e, ¬ LineAs l e) ∧ ∀ text pos, pos ≤ text.length →
        Reports (Match.new text pos ⟨some t, some (b.pool.take b.dataSize)⟩)
          (prefixMatches (lastData es) text pos) := by
  obtain ⟨ls, hls⟩ := fileLines_exists file
  obtain ⟨good, rest, es, rfl, h2, h3, h4, h5⟩ := genLoop_file junk hls h0 hb (file.length + 1) (by omega) [] _ []
    (genInv_new junk)
  refine ⟨good, rest, es, hls, h2, h3, fun text pos hpos => ?_⟩
  have ha : ∀ e ∈ es, ThaiWord e.word := by
    by_contra hn
    push_neg at hn
    have h : genLoop junk (file.length + 1) file [] (newDataBank junk) = .ok (.success t b) := h
    rw [h5 hn] at h
    cases h
  obtain ⟨t', b', h6, h7⟩ := h4 ha
  have h : genLoop junk (file.length + 1) file [] (newDataBank junk) = .ok (.success t b) := h
  rw [h6] at h
  obtain ⟨rfl, rfl⟩ : t' = t ∧ b' = b := by simpa using h
  rw [List.append_nil] at h7
  have := reports _ _ (genInv_look h7) text pos 0 (by omega)
  simp only [newest_eq] at this
  exact this

private def e1 : DEntry := ⟨u!"กา", b!"k_A_0@2"⟩
private def e2 : DEntry := ⟨u!"กากา", b!"x"⟩
private def e3 : DEntry := ⟨u!"กา", b!"y"⟩

example : (∀ e ∈ [e1, e2, e3], GoodEntry e) ∧
    prefixMatches (lastData [e1, e2, e3]) u!"xกากาก" 1 = [(3, b!"y"), (5, b!"x")] := by decide +kernel

/-! ## C32: dropped lines -/

/-- A line without TAB ends reading, and the generator reports success: the line after it is lost. -/
theorem C32_false : ∃ file : Str, ∃ t b, file = entryLine e1 ++ b!"bad\n" ++ entryLine e2 ∧
    genDict 0 file = .ok (.success t b) ∧ t.get e1.word ≠ none ∧ t.get e2.word = none := by
  obtain ⟨t, b, h, hp⟩ := exists_success (r := genDict 0 (entryLine e1 ++ b!"bad\n" ++ entryLine e2))
    (fun t b => decide (t.get e1.word ≠ none ∧ t.get e2.word = none)) (by decide +kernel)
  exact ⟨_, t, b, rfl, h, by simpa using hp⟩

/-- A line of more than 254 bytes is cut in two: its data end early. -/
theorem C32_long_false : ∃ e : DEntry, ∃ t b, genDict 0 (entryLine e) = .ok (.success t b) ∧
    (∀ c ∈ e.word, 0x0e01 ≤ c ∧ c ≤ 0x0e5b) ∧ (∀ x ∈ e.data, x ≠ 0 ∧ x ≠ 10) ∧
    ∃ i, t.get e.word = some i ∧
      (Dict.mk (some t) (some (b.pool.take b.dataSize))).getData i ≠ .ok e.data := by
  let e : DEntry := ⟨u!"ก", List.replicate 252 120⟩
  obtain ⟨t, b, h, hp⟩ := exists_success (r := genDict 0 (entryLine e))
    (fun t b => decide (t.get e.word = some 0 ∧
      (Dict.mk (some t) (some (b.pool.take b.dataSize))).getData 0 ≠ .ok e.data)) (by decide +kernel)
  exact ⟨e, t, b, h, by decide +kernel, by decide +kernel, 0, of_decide_eq_true hp⟩

/-- If every line is a good entry line, generation succeeds and every line is an entry (later lines for
the same word replace earlier ones). -/
theorem C32_partial (junk : Byte) (es : List DEntry) (hg : ∀ e ∈ es, GoodEntry e) :
    ∃ t b, genDict junk (es.flatMap entryLine) = .ok (.success t b) ∧
      (∀ w, (∃ i, t.get w = some i) ↔ ∃ e ∈ es, e.word = w) ∧
      ∀ w i s, t.get w = some i → lastData es w = some s →
        (Dict.mk (some t) (some (b.pool.take b.dataSize))).getData i = .ok s := by
  have hlen := lines_length es
  obtain ⟨t, b, h1, h2⟩ := genLoop_lines junk es hg ((es.flatMap entryLine).length + 1) (by omega) [] _ []
    (genInv_new junk)
  rw [List.append_nil] at h2
  have hl : ∀ w s, lastData es w = some s → ∃ i, t.get w = some i ∧
      (Dict.mk (some t) (some (b.pool.take b.dataSize))).getData i = .ok s := by
    intro w s hs
    obtain ⟨i, hi, _, hd⟩ := genInv_data h2 w s (by rw [newest_eq]; exact hs)
    exact ⟨i, hi, hd⟩
  refine ⟨t, b, h1, fun w => ?_, fun w i s hi hs => ?_⟩
  · rw [genInv_newest h2 w, newest_eq, lastData]
    constructor
    · rintro ⟨s, hs⟩
      obtain ⟨e, he, _⟩ := Option.map_eq_some_iff.mp hs
      refine ⟨e, List.mem_reverse.mp (List.mem_of_find?_eq_some he), ?_⟩
      simpa using List.find?_some he
    · rintro ⟨e, he, hw⟩
      have : (es.reverse.find? fun e => decide (e.word = w)).isSome = true := by
        rw [List.find?_isSome]; exact ⟨e, List.mem_reverse.mpr he, by simpa using hw⟩
      obtain ⟨x, hx⟩ := Option.isSome_iff_exists.mp this
      exact ⟨x.data, by rw [hx]; rfl⟩
  · obtain ⟨j, hj, hd⟩ := hl w s hs
    rw [hi] at hj; cases hj
    exact hd

/-- What the generator does with any file without NUL. The file is cut into lines in exactly one way. The lines before the first one that
is no entry (no TAB, or a word that is no UTF-8) are entered, and nothing after them is; if one of their words has a character that
cannot be stored, the generator fails. On success the words found are those of these lines, with the data of the last. -/
theorem C32_exact (junk : Byte) (file : Str) (h0 : 0 ∉ file) (hb : ∀ b ∈ file, b < 256) :
    ∃ ls good rest es, FileLines file ls ∧ (∀ ls', FileLines file ls' → ls' = ls) ∧ ls = good ++ rest ∧
      List.Forall₂ LineAs good es ∧ (∀ l ∈ rest.head?, ∀ e, ¬ LineAs l e) ∧
      ((∃ e ∈ es, ¬ ThaiWord e.word) → genDict junk file = .ok .failure) ∧
      ((∀ e ∈ es, ThaiWord e.word) → ∃ t b, genDict junk file = .ok (.success t b) ∧
        (∀ w, (t.get w).isSome = (lastData es w).isSome) ∧
        ∀ w i, t.get w = some i → ∃ s, lastData es w = some s ∧
          (Dict.mk (some t) (some (b.pool.take b.dataSize))).getData i = .ok s) := by
  obtain ⟨ls, hls⟩ := fileLines_exists file
  obtain ⟨good, rest, es, h1, h2, h3, h4, h5⟩ := genLoop_file junk hls h0 hb (file.length + 1) (by omega) [] _ []
    (genInv_new junk)
  refine ⟨ls, good, rest, es, hls, fun ls' h' => fileLines_unique h' hls, h1, h2, h3, h5, fun ha => ?_⟩
  obtain ⟨t, b, h6, h7⟩ := h4 ha
  rw [List.append_nil] at h7
  have hs' : ∀ w, (t.get w).isSome = (lastData es w).isSome := by
    intro w
    have := genInv_newest h7 w
    rw [newest_eq, ← Option.isSome_iff_exists, ← Option.isSome_iff_exists] at this
    exact Bool.eq_iff_iff.mpr this
  refine ⟨t, b, h6, hs', fun w i hi => ?_⟩
  obtain ⟨s, hl⟩ := Option.isSome_iff_exists.mp (by rw [← hs' w, hi]; rfl : (lastData es w).isSome = true)
  obtain ⟨j, hj, _, hd⟩ := genInv_data h7 w s (by rw [newest_eq]; exact hl)
  rw [hi] at hj
  cases hj
  exact ⟨s, hl, hd⟩

/-- A file is entered as a whole, with nothing lost, exactly if each of its lines is an entry with a Thai word. -/
theorem C32_whole (junk : Byte) (file : Str) (h0 : 0 ∉ file) (hb : ∀ b ∈ file, b < 256) (ls : List Str)
    (hls : FileLines file ls) :
    (∃ t b, genDict junk file = .ok (.success t b) ∧
      ∀ l ∈ ls, ∃ e i, LineAs l e ∧ t.get e.word = some i) ↔
      ∀ l ∈ ls, ∃ e, LineAs l e ∧ ThaiWord e.word := by
  obtain ⟨ls1, good, rest, es, hls1, hu, rfl, h2, h3, h5, h4⟩ := C32_exact junk file h0 hb
  cases hu ls hls
  constructor
  · rintro ⟨t, b, hg, hl⟩ l hl'
    obtain ⟨e, i, he, hi⟩ := hl l hl'
    have ha : ∀ e ∈ es, ThaiWord e.word := by
      by_contra hn
      push_neg at hn
      rw [h5 hn] at hg
      cases hg
    obtain ⟨t', b', hg', -, h6⟩ := h4 ha
    rw [hg] at hg'
    obtain ⟨rfl, rfl⟩ : t = t' ∧ b = b' := by simpa using hg'
    obtain ⟨s, hs, -⟩ := h6 _ _ hi
    obtain ⟨e', he', -⟩ := Option.map_eq_some_iff.mp hs
    have hw : e'.word = e.word := by simpa using List.find?_some he'
    exact ⟨e, he, hw ▸ ha e' (List.mem_reverse.mp (List.mem_of_find?_eq_some he'))⟩
  · intro hall
    have hr : rest = [] := by
      cases rest with
      | nil => rfl
      | cons l rest =>
        obtain ⟨e, he, -⟩ := hall l (by simp)
        exact absurd he (h3 l rfl e)
    subst hr
    rw [List.append_nil] at hall ⊢
    have hdet : ∀ l e e', LineAs l e → LineAs l e' → (∀ b ∈ l, b < 256) → l.length ≤ 255 → e' = e := by
      rintro l ⟨w, d⟩ ⟨w', d'⟩ he he' hl hn
      obtain ⟨x, hx, rfl⟩ := lineOf_complete hl hn he
      obtain ⟨y, hy, rfl⟩ := lineOf_complete hl hn he'
      rw [hx] at hy
      obtain ⟨rfl, rfl⟩ := Prod.mk.inj (Option.some.inj hy)
      rfl
    have hmem := fileLines_mem hls1
    rw [List.append_nil] at hmem
    have ha : ∀ e ∈ es, ThaiWord e.word := by
      intro e he
      obtain ⟨l, hl, hle⟩ := forall₂_mem_right h2 he
      obtain ⟨e', he', ht⟩ := hall l hl
      rw [← hdet l e e' hle he' (fun b hb' => hb b ((hmem l hl).1 b hb')) (hmem l hl).2]
      exact ht
    obtain ⟨t, b, hg, hs, -⟩ := h4 ha
    refine ⟨t, b, hg, fun l hl => ?_⟩
    obtain ⟨e, he, hle⟩ := forall₂_mem_left h2 hl
    have hsome : (lastData es e.word).isSome = true := by
      rw [lastData, Option.isSome_map, List.find?_isSome]
      exact ⟨e, List.mem_reverse.mpr he, by simp⟩
    obtain ⟨i, hi⟩ := Option.isSome_iff_exists.mp ((hs e.word).trans hsome)
    exact ⟨e, i, hle, hi⟩

/-- Non-vacuity: a good line, a line without TAB, and a good line. -/
example : FileLines (entryLine e1 ++ b!"bad\n" ++ entryLine e2)
    [e1.word.flatMap utf8EncodeOne ++ 9 :: e1.data, b!"bad", e2.word.flatMap utf8EncodeOne ++ 9 :: e2.data] :=
  .line (e1.word.flatMap utf8EncodeOne ++ 9 :: e1.data) (b!"bad\n" ++ entryLine e2) _ (by decide +kernel) (by decide +kernel)
    (.line b!"bad" (entryLine e2) _ (by decide +kernel) (by decide +kernel)
      (.line (e2.word.flatMap utf8EncodeOne ++ 9 :: e2.data) [] _ (by decide +kernel) (by decide +kernel) .nil))

/-- The generator ends on every file. It is defined on every file without NUL. -/
theorem C32_defined (junk : Byte) (file : Str) :
    (∃ r, genDict junk file = .ok r) ∨ (genDict junk file = .ub ∧ 0 ∈ file) :=
  genLoop_defined junk _ file [] _ [] (bankInv_new junk) (by omega)

/-- A line that begins with NUL is read before its beginning. -/
theorem C32_nul : genDict 0 [0, 10] = .ub := by decide +kernel

/-! ## C34: UTF-8 reader -/

/-- A well-formed sequence is decoded, whatever follows. -/
theorem C34_decode (c : Nat) (h : c < 0x110000) (r : Str) : getUTF8 (utf8EncodeOne c ++ r) = some (c, r) :=
  getUTF8_enc c h r

/-- Exactly what is accepted: a first byte that announces up to six more, and that many continuation bytes. The code is what they say, in
32 bits. -/
theorem C34_exact (s : Str) (hs : ∀ b ∈ s, b < 256) (c : Nat) (r : Str) :
    getUTF8 s = some (c, r) ↔ ∃ p, s = p ++ r ∧ CharAs p c := getUTF8_iff s hs c r

/-- A stray continuation byte is rejected. -/
theorem C34_stray (b : Nat) (h : 0x80 ≤ b ∧ b < 0xc0) (r : Str) : getUTF8 (b :: r) = none := by
  obtain ⟨h1, h2⟩ := stray b (by omega) h.1 h.2
  rw [getUTF8, if_neg h1, h2]
  rfl

/-- A truncated sequence, at the end of the string or before a byte that is no continuation, is
rejected. -/
theorem C34_truncated (c : Nat) (h : c < 0x110000) (p q r : Str) (hp : p ≠ []) (hq : q ≠ [])
    (he : p ++ q = utf8EncodeOne c) (hr : ∀ b ∈ r.head?, b < 256 ∧ ¬ (0x80 ≤ b ∧ b < 0xc0)) :
    getUTF8 (p ++ r) = none := getUTF8_truncated c h p q r hp hq he hr

/-- What is consumed is a non-empty beginning of the string: the reader advances and never passes the
terminating NUL. -/
theorem C34_suffix (s r : Str) (c : Nat) (h : getUTF8 s = some (c, r)) : ∃ p : Str, p ≠ [] ∧ s = p ++ r := by
  cases s with
  | nil => cases h
  | cons b s =>
    rw [getUTF8] at h
    split at h
    · cases h; exact ⟨[_], by simp, rfl⟩
    · generalize leadLoop b 7 64 63 = x at h
      obtain ⟨check, mask⟩ := x
      simp only at h
      split at h
      · cases h
      · obtain ⟨p, hp, _⟩ := contLoop_suffix h
        exact ⟨b :: p, by simp, by rw [hp]; rfl⟩

/-- A word written in UTF-8 is read back as a whole. -/
theorem C34_word (w : List Nat) (hw : ∀ c ∈ w, c < 0x110000) (hn : w.length ≤ 255) :
    wordLoop 255 (w.flatMap utf8EncodeOne) = some w := wordLoop_enc 255 w hw hn

/-- Overlong sequences are accepted (not excluded by the property). -/
theorem C34_overlong : getUTF8 [0xc1, 0xa1] = some (0x61, []) := by decide +kernel

example : utf8EncodeOne 0x0e01 = [0xe0, 0xb8, 0x81] ∧ getUTF8 [0xe0, 0xb8] = none ∧
    getUTF8 [0xe0, 0xb8, 0x81, 0x41] = some (0x0e01, [0x41]) := by decide +kernel

/-! ## C35: the generated file opens -/

/-- A dictionary with at least one entry opens, and the data bank is the generated one. -/
theorem C35_partial (junk : Byte) (file : Str) (t : Trie) (b : DataBank) (d0 : Dict)
    (h : genDict junk file = .ok (.success t b)) (hne : t ≠ []) (hsz : b.dataSize < 0x80000000) :
    ∃ f, GenResult.file (.success t b) = some f ∧
      Dict.open_ d0 (some f) = .ok (⟨some t, some (b.pool.take b.dataSize)⟩, true) := by
  obtain ⟨es, h1, h2⟩ := genLoop_run (genInv_new junk) h
  rw [List.append_nil] at h2
  refine ⟨_, rfl, open_gen h2 (fun he => hne ?_) hsz d0⟩
  rw [he] at h2
  cases t with
  | nil => rfl
  | cons a t =>
    have := h2.get a.1
    simp [Trie.get, idxOf] at this

/-- Exactly the files of a trie and a complete, non-empty data bank (and possibly more bytes) open, and then both parts
are taken as they are. -/
theorem C35_exact (d0 d : Dict) (f : DictFile) (hb : ∀ b ∈ f.rest, b < 256) :
    Dict.open_ d0 (some f) = .ok (d, true) ↔
      ∃ t data tail, f.trie = some t ∧ 0 < data.length ∧ data.length < 0x80000000 ∧
        f.rest = fileWriteInt32 data.length ++ data ++ tail ∧ d = ⟨some t, some data⟩ := by
  obtain ⟨trie, rest⟩ := f
  constructor
  · intro h
    unfold Dict.open_ at h
    simp only [Res.bind_eq_ok, Res.pure_eq, Res.ok.injEq, Prod.mk.injEq, Bool.and_eq_true] at h
    obtain ⟨data, hd, rfl, ht, hs⟩ := h
    obtain ⟨t, rfl⟩ := Option.isSome_iff_exists.mp ht
    obtain ⟨data, rfl⟩ := Option.isSome_iff_exists.mp hs
    unfold Dict.readDataBank at hd
    cases hi : Dict.readInt32 rest with
    | none => rw [hi] at hd; cases hd
    | some q =>
      obtain ⟨n, r⟩ := q
      rw [hi] at hd
      simp only at hd
      split at hd
      · cases hd
      split at hd
      · cases hd
      split at hd
      · cases hd
      cases hd
      rename_i h0 h1 h2
      obtain ⟨hw, hn⟩ := readInt32_inv hb hi
      have hl : (r.take n.toNat).length = n.toNat := by rw [List.length_take]; omega
      refine ⟨t, _, r.drop n.toNat, rfl, by omega, by omega, ?_, rfl⟩
      rw [hl, Int.toNat_of_nonneg (by omega), List.append_assoc, List.take_append_drop]
      exact hw
  · rintro ⟨t, data, tail, rfl, h1, h2, h3, rfl⟩
    simp only at h3
    have hr := C29_roundtrip data.length (by omega) (data ++ tail)
    unfold Dict.open_ Dict.readDataBank
    simp only [h3, List.append_assoc, hr]
    rw [if_neg (by omega), if_neg (by omega), if_neg (by simp)]
    simp

/-- A dictionary without entries does not open. -/
theorem C35_false : ∃ t b, genDict 0 [] = .ok (.success t b) ∧
    Dict.open_ Dict.empty (some ⟨some t, dataBankWrite b⟩) = .ok (⟨some t, none⟩, false) :=
by
  obtain ⟨t, b, h, hp⟩ := exists_success (r := genDict 0 [])
    (fun t b => decide (Dict.open_ Dict.empty (some ⟨some t, dataBankWrite b⟩) = .ok (⟨some t, none⟩, false)))
    (by decide +kernel)
  exact ⟨t, b, h, of_decide_eq_true hp⟩

example : ∃ t b, genDict 0 (entryLine e1) = .ok (.success t b) ∧ t ≠ [] ∧ b.dataSize = 8 :=
by
  obtain ⟨t, b, h, hp⟩ := exists_success (r := genDict 0 (entryLine e1))
    (fun t b => decide (t ≠ [] ∧ b.dataSize = 8)) (by decide +kernel)
  exact ⟨t, b, h, of_decide_eq_true hp⟩

end Thpronun
