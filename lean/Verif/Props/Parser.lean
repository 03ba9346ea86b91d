import Verif.Lemmas.ParserText
import Verif.Props.Dict
import Verif.Props.Output
import Verif.Props.Notation

/-! # The parser: C33, C36–C41, C53

`look` is the content of the exception dictionary (`Holds`, established for generated dictionaries by
C31), `GoodLook look` says that its entries are readings of their words (established for the shipped data by
C48). -/

namespace Thpronun
open Res Spec DAG

/-! ## Evaluating examples -/

theorem parseU16_fuel {ct : CType} {w : U16Str} {dict : Option Dict} {brk : List Int} {n : Nat}
    (h : parseU16Fuel ct w n dict brk ≠ .diverge) : parseU16 ct w dict brk = parseU16Fuel ct w n dict brk := by
  unfold parseU16Fuel at h ⊢
  unfold parseU16
  cases hp : parseInit ct w brk with
  | ok pool => rw [hp] at h; exact whileLoop_eq h
  | throw e => rfl
  | ub => rfl
  | diverge => rfl

/-- The parser succeeds within `n` turns and its result satisfies `P`. -/
def parsesTo (n : Nat) (w : U16Str) (dict : Option Dict) (brk : List Int) (P : PronunDAG → Bool) : Bool :=
  match parseU16Fuel thaiCType w n dict brk with
  | .ok d => P d
  | _ => false

theorem parsesTo_spec {n : Nat} {w : U16Str} {dict : Option Dict} {brk : List Int} {P : PronunDAG → Bool}
    (h : parsesTo n w dict brk P = true) : ∃ d, parseU16 thaiCType w dict brk = .ok d ∧ P d = true := by
  unfold parsesTo at h
  cases hr : parseU16Fuel thaiCType w n dict brk with
  | ok d =>
    rw [hr] at h
    exact ⟨d, by rw [parseU16_fuel (n := n) (by rw [hr]; simp), hr], h⟩
  | _ => rw [hr] at h; cases h

theorem holds_none : Holds none fun _ => none := fun _ => rfl

theorem goodLook_none : GoodLook fun _ => none := fun _ _ h => by cases h

theorem readable_none : Readable fun _ => none := fun _ _ h => by cases h

theorem Spec.GoodLook.readable {look} (h : GoodLook look) : Readable look := fun v data hl => by
  obtain ⟨strs, h1, -⟩ := h v data hl
  exact ⟨strs, h1⟩

variable {ct : CType}

/-! ## C33: failed load of the dictionary -/

/-- A file whose trie can be read but not its data: loading reports failure, but the trie stays, and a
match reads through a null pointer. -/
theorem C33_false : ∃ (file : DictFile) (p : Parser),
    (Parser.new (fun _ => []) false).loadExceptDict (some file) = .ok (p, false) ∧
    p.parseWord thaiCType b!"ก" = .ub ∧
    ∃ d, (Parser.new (fun _ => []) false).parseWord thaiCType b!"ก" = .ok d := by
  refine ⟨⟨some [(u!"ก", 0)], []⟩, ⟨some ⟨some [(u!"ก", 0)], none⟩, none⟩, rfl, ?_, ?_⟩
  · have h : parseU16Fuel thaiCType u!"ก" 10 (some ⟨some [(u!"ก", 0)], none⟩) [] = .ub := by decide +kernel
    have := parseU16_fuel (n := 10) (by rw [h]; simp)
    rw [h] at this
    exact this
  · obtain ⟨d, hd, -⟩ := parsesTo_spec (n := 10) (w := u!"ก") (dict := none) (brk := []) (P := fun _ => true)
      (by decide +kernel)
    exact ⟨d, hd⟩

/-- If the file is missing or does not start with a trie, the parser works as without dictionary.
(Missing: a readable trie followed by a missing, empty or truncated data bank, see `C33_false`.) -/
theorem C33_partial (hct : ct.Ok) (p p' : Parser) (file : Option DictFile) (r : Bool)
    (h : p.loadExceptDict file = .ok (p', r)) (hf : ∀ f, file = some f → f.trie = none) (word : Str) :
    r = false ∧ p'.parseWord ct word = { p with exceptDict := none }.parseWord ct word := by
  unfold Parser.loadExceptDict at h
  rw [bind_eq_ok] at h
  obtain ⟨⟨d, r'⟩, hd, h⟩ := h
  cases h
  have hno : d.mTrie = none ∧ r = false := by
    unfold Dict.open_ at hd
    cases file with
    | none => cases hd; exact ⟨rfl, rfl⟩
    | some f =>
      simp only [bind_eq_ok] at hd
      obtain ⟨data, -, hd⟩ := hd
      cases hd
      simp [hf f rfl]
  refine ⟨hno.2, ?_⟩
  unfold Parser.parseWord
  cases fromBytes word with
  | ok w => exact parse_noTrie hct d hno.1
  | throw e => rfl
  | ub => rfl
  | diverge => rfl

/-- Even with a trie left over, a text without any of its words is parsed as without dictionary. -/
theorem C33_nomatch (hct : ct.Ok) (w : U16Str) (d : Dict) (brk : List Int)
    (h : ∀ pos, pos < w.length → ((Match.new w pos d).findNext).2 = false) :
    parseU16 ct w (some d) brk = parseU16 ct w none brk := by
  refine parseU16_congr hct fun s hs hp => expand_congr fun hlt => ?_
  unfold exceptions findExceptions
  simp only
  rw [exceptLoop]
  have := h s.pos hp
  revert this
  generalize (Match.new w s.pos d).findNext = r
  obtain ⟨m, b⟩ := r
  intro hb
  simp only at hb
  subst hb
  rfl

example : ∃ p, (Parser.new (fun _ => []) false).loadExceptDict (some ⟨none, b!"abcd"⟩) = .ok (p, false) :=
  ⟨⟨some ⟨none, none⟩, none⟩, rfl⟩

example : ∀ pos, pos < (u!"กา").length → ((Match.new u!"กา" pos ⟨some [(u!"ขา", 0)], none⟩).findNext).2 = false := by
  decide +kernel

/-! ## C36: termination -/

theorem C36_parse (hct : ct.Ok) (w : U16Str) (dict : Option Dict) (brk : List Int) :
    parseU16 ct w dict brk ≠ .diverge := parseU16_term hct dict

/-- Every word, dictionary (well-formed or not) and word breaker. -/
theorem C36_terminates (hct : ct.Ok) (p : Parser) (word : Str) : p.parseWord ct word ≠ .diverge := by
  unfold Parser.parseWord
  unfold fromBytes
  cases utf8Decode word with
  | none => intro h; cases h
  | some cs => exact C36_parse hct _ _ _

/-! ## C37: no crash -/

/-- What `parseWord` does on UTF-8 text: the search, on its UTF-16 form, with the word breaks. -/
theorem C37_word (p : Parser) (word : Str) (w : U16Str) (h : fromBytes word = .ok w) :
    p.parseWord ct word = parseU16 ct w p.exceptDict (findBreaks w p.thBrk) := by
  unfold Parser.parseWord
  rw [h]; rfl

/-- Text that is not UTF-8 is rejected by the converter. -/
theorem C37_encoding (p : Parser) (word : Str) (h : utf8Decode word = none) :
    p.parseWord ct word = .throw .rangeError := by
  unfold Parser.parseWord fromBytes
  rw [h]; rfl

/-- A word that ends with a leading vowel makes the parser throw. -/
theorem C37_false : (Parser.new (fun _ => []) false).parseWord thaiCType b!"แ" = .throw .outOfRange := by
  have h : parseU16Fuel thaiCType u!"แ" 10 none [] = .throw .outOfRange := by decide +kernel
  have := parseU16_fuel (n := 10) (by rw [h]; simp)
  rw [h] at this
  exact this

/-- With a readable dictionary and breaks inside the text the parser returns or throws `out_of_range`,
the latter exactly when some partial reading reaches a leading vowel other than SARA E at the very end. -/
theorem parse_exact (hct : ct.Ok) (w : U16Str) (dict : Option Dict) (brk : List Int) (look : List Nat → Option Str)
    (hd : Holds dict look) (hr : Readable look) (hb : ∀ b ∈ brk, b ≤ w.length) :
    ((∃ d, parseU16 ct w dict brk = .ok d) ∨ parseU16 ct w dict brk = .throw .outOfRange) ∧
    (parseU16 ct w dict brk = .throw .outOfRange ↔ ∃ c, Stuck ct w look brk c) := by
  rcases parse_ok_or_stuck hct hd (met_of_readable hr) hb with ⟨d, h⟩ | ⟨h, hs⟩
  · refine ⟨.inl ⟨d, h⟩, fun h' => ?_, fun ⟨c, hc⟩ => absurd h (not_ok_of_stuck hct hd hc)⟩
    rw [h] at h'; cases h'
  · exact ⟨.inr h, fun _ => hs, fun _ => h⟩

/-- A word that does not end with a leading vowel (other than SARA E) is parsed without exception and
without undefined behaviour. (Missing: words ending with แ โ ใ ไ, see `C37_false`, `C37_exact` in Props/Failing.) -/
theorem C37_partial (hct : ct.Ok) (p : Parser) (word : Str) (w : U16Str) (look : List Nat → Option Str)
    (hw : fromBytes word = .ok w) (hd : Holds p.exceptDict look) (hr : Readable look)
    (hb : ∀ b ∈ findBreaks w p.thBrk, b ≤ w.length)
    (hl : ∀ c, w.getLast? = some c → ct.isLdVowel c = true → c = UTH.SARA_E) :
    ∃ d, p.parseWord ct word = .ok d := by
  rw [C37_word p word w hw]
  rcases parse_ok_or_stuck hct hd (met_of_readable hr) hb with h | ⟨-, c, hder, hlen, t, x, hst, hpl, hx, hld, hne⟩
  · exact h
  · refine absurd (hl x ?_ hld) hne
    rw [List.getLast?_eq_getElem?, ← hx]
    congr 1; omega

example : Readable (fun _ => none) ∧ Holds none (fun _ => none) ∧
    ∀ c, (u!"เแก").getLast? = some c → thaiCType.isLdVowel c = true → c = UTH.SARA_E :=
  ⟨readable_none, holds_none, by intro c h; cases h; decide⟩

/-! ## C38: pronunciations cover the word -/

section
variable {look : List Nat → Option Str} {p : Parser} {word : Str} {w : U16Str} {d : PronunDAG}

/-- Every edge leads strictly forward inside the word, its syllable carries the node it leads to, its
target is the end or has further edges, and its source is the beginning or is reached. -/
theorem C38_edges (hct : ct.Ok) (hw : fromBytes word = .ok w) (hd : Holds p.exceptDict look) (hg : GoodLook look)
    (h : p.parseWord ct word = .ok d) (e : Entry Syl) (he : e ∈ d.mFrom) :
    e.val.endPos = e.target ∧ 0 ≤ place e.key ∧ place e.key < place e.target ∧ place e.target ≤ 2 * w.length ∧
    (e.target = w.length ∨ d.outEdges e.target ≠ []) ∧ (e.key = 0 ∨ ∃ e' ∈ d.mFrom, e'.target = e.key) := by
  rw [C37_word p word w hw] at h
  obtain ⟨h1, h2, h3, h4, h5, -⟩ := edge_inv hct hg hd h he
  exact ⟨(parseU16_correct hct hd h).1.ends e he, h1, h2, h3, h4, h5⟩

/-- The result is a proper DAG: built by DAG operations and acyclic. -/
theorem C38_acyclic (hct : ct.Ok) (hw : fromBytes word = .ok w) (hd : Holds p.exceptDict look) (hg : GoodLook look)
    (h : p.parseWord ct word = .ok d) : Built d ∧ Acyclic d := by
  rw [C37_word p word w hw] at h
  exact ⟨(parseU16_correct hct hd h).1.built, acyclic_parse hct hg hd h⟩

/-- Every maximal path from the beginning spells a pronunciation that goes strictly forward from 0 to the
end of the word. -/
theorem C38_paths (hct : ct.Ok) (hw : fromBytes word = .ok w) (hd : Holds p.exceptDict look) (hg : GoodLook look)
    (h : p.parseWord ct word = .ok d) (path : List (Entry Syl)) (hp : MaxPath d 0 path) :
    Forward 0 w.length (path.map Entry.val) := by
  have key : ∀ n path, MaxPath d n path → Forward n w.length (path.map Entry.val) := by
    intro n path hp
    induction hp with
    | @last n e he hend =>
      obtain ⟨hm, hk⟩ := mem_outEdges.mp he
      obtain ⟨h1, -, h2, -, h3, -⟩ := C38_edges hct hw hd hg h e hm
      refine ⟨by rw [h1, ← hk]; exact h2, ?_⟩
      show e.val.endPos = _
      rw [h1]
      exact h3.elim id fun h => absurd hend h
    | @step n e path he _ ih =>
      obtain ⟨hm, hk⟩ := mem_outEdges.mp he
      obtain ⟨h1, -, h2, -⟩ := C38_edges hct hw hd hg h e hm
      exact ⟨by rw [h1, ← hk]; exact h2, by rw [h1]; exact ih⟩
  exact key 0 path hp

/-- The listing of the pronunciations succeeds, and all of them cover the word. -/
theorem C38_listing (hct : ct.Ok) (hw : fromBytes word = .ok w) (hd : Holds p.exceptDict look) (hg : GoodLook look)
    (h : p.parseWord ct word = .ok d) :
    ∃ ss, PronunDAG.sylStrings d 0 = .ok ss ∧ ∀ s ∈ ss, s ≠ [] ∧ Forward 0 w.length s := by
  obtain ⟨hb, ha⟩ := C38_acyclic hct hw hd hg h
  obtain ⟨ps, h1, -, h3⟩ := C15_listing d hb ha
  refine ⟨_, h1, fun s hs => ?_⟩
  obtain ⟨path, hp, rfl⟩ := List.mem_map.mp hs
  refine ⟨?_, C38_paths hct hw hd hg h path ((h3 path).mp hp)⟩
  cases (h3 path).mp hp <;> simp

/-- There is a pronunciation as soon as the word has any edge. -/
theorem C38_nonempty (hct : ct.Ok) (hw : fromBytes word = .ok w) (hd : Holds p.exceptDict look) (hg : GoodLook look)
    (h : p.parseWord ct word = .ok d) : PronunDAG.sylStrings d 0 = .ok [] ↔ d.mFrom = [] := by
  obtain ⟨hb, ha⟩ := C38_acyclic hct hw hd hg h
  rw [C15_empty d ha]
  constructor
  · intro h0
    by_contra hne
    have hall : ∀ n : Nat, ∀ e ∈ d.mFrom, (place e.key).toNat ≤ n → False := by
      intro n
      induction n with
      | zero =>
        intro e he hn
        obtain ⟨-, p1, p2, -, -, hs⟩ := C38_edges hct hw hd hg h e he
        rcases hs with hk | ⟨e', he', ht⟩
        · have := mem_outEdges.mpr ⟨he, hk⟩
          rw [h0] at this; cases this
        · obtain ⟨-, p3, p4, -⟩ := C38_edges hct hw hd hg h e' he'
          rw [ht] at p4; omega
      | succ n ih =>
        intro e he hn
        obtain ⟨-, p1, p2, -, -, hs⟩ := C38_edges hct hw hd hg h e he
        rcases hs with hk | ⟨e', he', ht⟩
        · have := mem_outEdges.mpr ⟨he, hk⟩
          rw [h0] at this; cases this
        · obtain ⟨-, p3, p4, -⟩ := C38_edges hct hw hd hg h e' he'
          rw [ht] at p4
          exact ih e' he' (by omega)
    obtain ⟨e, he⟩ := List.exists_mem_of_ne_nil _ hne
    exact hall _ e he le_rfl
  · intro h0
    simp [DAG.outEdges, DAG.equalRange, h0]

example : ∃ d, (Parser.new (fun _ => []) false).parseWord thaiCType b!"ตากลม" = .ok d ∧
    ∃ ss, PronunDAG.sylStrings d 0 = .ok ss ∧ 2 ≤ ss.length := by
  obtain ⟨d, hd, h⟩ := parsesTo_spec (n := 100) (w := u!"ตากลม") (dict := none) (brk := [])
    (P := fun d => match PronunDAG.sylStrings d 0 with | .ok ss => decide (2 ≤ ss.length) | _ => false)
    (by decide +kernel)
  refine ⟨d, hd, ?_⟩
  revert h
  cases PronunDAG.sylStrings d 0 with
  | ok ss => exact fun h => ⟨ss, rfl, of_decide_eq_true h⟩
  | throw e => exact fun h => by cases h
  | ub => exact fun h => by cases h
  | diverge => exact fun h => by cases h

/-! ## C40: other text is passed through -/

/-- The period after other text is lost: the literal "abc" stands for "abc.". -/
theorem C40_false : ∃ d e, (Parser.new (fun _ => []) false).parseWord thaiCType b!"abc." = .ok d ∧
    e ∈ d.mFrom ∧ e.key = 0 ∧ e.target = 4 ∧ e.val.literal = u!"abc" := by
  obtain ⟨d, hd, h⟩ := parsesTo_spec (n := 10) (w := u!"abc.") (dict := none) (brk := [])
    (P := fun d => d.mFrom.any fun e => decide (e.key = 0 ∧ e.target = 4 ∧ e.val.literal = u!"abc")) (by decide +kernel)
  obtain ⟨e, he, h⟩ := List.any_eq_true.mp h
  exact ⟨d, e, hd, he, of_decide_eq_true h⟩

/-- Every literal is a piece of the text: a maximal run of non-token characters, possibly with a period
after it counted in (and lost), or a single period. (Missing: the period, see `C40_false`.) -/
theorem literal_piece (hct : ct.Ok) (hw : fromBytes word = .ok w) (hd : Holds p.exceptDict look) (hg : GoodLook look)
    (h : p.parseWord ct word = .ok d) (e : Entry Syl) (he : e ∈ d.mFrom) (hl : e.val.literal ≠ []) :
    ∃ i j : Nat, e.key = i ∧ i < j ∧ j ≤ w.length ∧ e.val.literal = piece w i j ∧
      ((IsGap ct w i j ∧ (i = 0 ∨ Token ct w (i - 1)) ∧
          (e.target = j ∨ (e.target = (j : Int) + 1 ∧ w[j]? = some ch!"." ∧ w[j - 1]? ≠ some ch!" "))) ∨
        (j = i + 1 ∧ w[i]? = some ch!"." ∧ e.target = j)) := by
  rw [C37_word p word w hw] at h
  obtain ⟨-, -, -, -, -, e', h1, h2, h3, hf⟩ := edge_inv hct hg hd h he
  have hlit : e'.val.literal = e.val.literal := ((Syl.eq_iff _ _).mp h3).1
  rw [← hlit] at hl ⊢
  rw [← h1, ← h2]
  rcases hf with hf | ⟨e0, q, hf, ht, hq, hdot, hd1, hd2, rfl⟩
  · cases hf with
    | gap hg hb => exact ⟨_, _, rfl, hg.lt, hg.le, rfl, .inl ⟨hg, hb, .inl rfl⟩⟩
    | @dot i hdot =>
      refine ⟨i, i + 1, rfl, by omega, ?_, (piece_one hdot).symm, .inr ⟨rfl, hdot, by push_cast; rfl⟩⟩
      by_contra hn
      rw [List.getElem?_eq_none (by omega)] at hdot; cases hdot
    | syl hv _ => exact absurd hv.literal hl
  · cases hf with
    | @gap i j hg hb =>
      have hjq : j = q := by simpa using ht
      subst hjq
      exact ⟨i, j, rfl, hg.lt, hg.le, rfl, .inl ⟨hg, hb, .inr ⟨rfl, hdot, hd2⟩⟩⟩
    | @dot i hdot' =>
      have : i = q - 1 := by simp only at ht; omega
      rw [this] at hdot'
      exact absurd hdot' hd1
    | syl hv _ => exact absurd hv.literal hl

/-- A text without Thai letters and periods: exactly one pronunciation, the text itself, whatever the
dictionary and the breaks. -/
theorem C40_plain (w : U16Str) (hne : w ≠ []) (hno : ∀ i, ¬ Token ct w i) (dict : Option Dict) (brk : List Int) :
    ∃ d, parseU16 ct w dict brk = .ok d ∧ PronunDAG.sylStrings d 0 = .ok [[Syl.lit w.length w]] := by
  have hlen : 0 < w.length := List.length_pos_of_ne_nil hne
  have hsk : skipNonThai ct w 0 = w.length := by
    have h1 := skipNonThai_le (ct := ct) (w := w) (Nat.zero_le _)
    rcases Nat.lt_or_ge (skipNonThai ct w 0) w.length with h | h
    · exact absurd (skipNonThai_token h) (hno _)
    · omega
  have hinit : parseInit ct w brk = .ok [⟨w.length, w.length, ⟨[⟨0, w.length, Syl.lit w.length w⟩],
      [⟨w.length, 0, Syl.lit w.length w⟩]⟩, false⟩] := by
    unfold parseInit refresh
    simp only [hsk]
    rw [if_pos (show w.length > 0 from hlen)]
    simp only [lt_irrefl, if_false, List.drop_zero, Nat.sub_zero, List.take_length]
    rfl
  have hw : parseU16 ct w dict brk = .ok ⟨[⟨0, w.length, Syl.lit w.length w⟩],
      [⟨w.length, 0, Syl.lit w.length w⟩]⟩ := by
    have hf : parseU16Fuel ct w 2 dict brk = .ok ⟨[⟨0, w.length, Syl.lit w.length w⟩],
        [⟨w.length, 0, Syl.lit w.length w⟩]⟩ := by
      unfold parseU16Fuel
      rw [hinit, ok_bind]
      unfold iterLoop
      rw [parseStep, if_pos le_rfl]
      rfl
    rw [parseU16_fuel (n := 2) (by rw [hf]; simp), hf]
  refine ⟨_, hw, ?_⟩
  have : ((w.length : Nat) : Int) ≠ 0 := by omega
  simp [PronunDAG.sylStrings, PronunDAG.sylStringsAux, DAG.outEdges, DAG.equalRange, concatRes, Ne.symm this]

/-- The empty text has no pronunciation. -/
theorem C40_empty (dict : Option Dict) (brk : List Int) : parseU16 ct [] dict brk = .ok DAG.empty := by
  have h : parseU16Fuel ct [] 2 dict brk = .ok DAG.empty := rfl
  rw [parseU16_fuel (n := 2) (by rw [h]; simp), h]

example : (u!"Hello, 世界 😀") ≠ [] ∧ ∀ i, ¬ Token thaiCType u!"Hello, 世界 😀" i := by
  refine ⟨by decide, fun i ⟨c, hc, ht⟩ => ?_⟩
  have : ∀ c ∈ u!"Hello, 世界 😀", isThaiTokenChar thaiCType c = false := by decide +kernel
  rw [this c (List.mem_of_getElem? hc)] at ht
  cases ht

/-! ## C53: literals and encodings -/

/-- The literal for a piece of other text is a sequence of whole characters; printed in UTF-8 it gives back the
very bytes of the input at that place. -/
theorem C53_bytes (hct : ct.Ok) (hw : fromBytes word = .ok w) (hd : Holds p.exceptDict look) (hg : GoodLook look)
    (h : p.parseWord ct word = .ok d) (e : Entry Syl) (he : e ∈ d.mFrom) (hl : e.val.literal ≠ []) :
    ∃ (a m b : Str) (a16 : U16Str), word = a ++ m ++ b ∧ fromBytes a = .ok a16 ∧ e.key = a16.length ∧
      fromBytes m = .ok e.val.literal ∧ toBytes e.val.literal = .ok m := by
  obtain ⟨i, j, hk, hij, hj, hlit, hc⟩ := literal_piece hct hw hd hg h e he hl
  obtain ⟨cs, hcs, rfl, hw16⟩ := fromBytes_ok.mp hw
  have hb : Bound ct w i ∧ Bound ct w j := by
    rcases hc with ⟨hg, hb, -⟩ | ⟨rfl, hdot, -⟩
    · exact ⟨gap_bound_left hb, gap_bound_right hg⟩
    · have := token_dot (ct := ct) hdot
      exact ⟨.inr (.inr (.inl this)), .inr (.inl (by rw [Nat.add_sub_cancel]; exact this))⟩
  obtain ⟨a, m, b, rfl, ha, hm⟩ := piece_enc hct hcs hw16 hij.le hj hb.1 hb.2
  refine ⟨enc8 a, enc8 m, enc8 b, enc16 a, by simp, fromBytes_ok.mpr ⟨a, fun c hc => hcs c (by simp [hc]), rfl, rfl⟩,
    by rw [hk, ha], ?_, ?_⟩
  · rw [hlit, hm]; exact fromBytes_ok.mpr ⟨m, fun c hc => hcs c (by simp [hc]), rfl, rfl⟩
  · rw [hlit, hm]; exact toBytes_enc16 fun c hc => hcs c (by simp [hc])

/-- The literals are well-formed UTF-16: no surrogate pair is split. -/
theorem C53_utf16 (hct : ct.Ok) (hw : fromBytes word = .ok w) (hd : Holds p.exceptDict look) (hg : GoodLook look)
    (h : p.parseWord ct word = .ok d) (e : Entry Syl) (he : e ∈ d.mFrom) (hl : e.val.literal ≠ []) :
    GoodUtf16 e.val.literal := by
  obtain ⟨a, m, b, a16, -, -, -, -, ht⟩ := C53_bytes hct hw hd hg h e he hl
  unfold toBytes at ht
  unfold GoodUtf16
  cases hu : utf16Decode e.val.literal with
  | none => rw [hu] at ht; cases ht
  | some cs => exact ⟨cs, rfl⟩

/-- What the notations print for a literal: its bytes in parentheses (raw: with the end position). -/
theorem C53_printed (s : Syl) (m : Str) (hl : s.literal ≠ []) (ht : toBytes s.literal = .ok m) :
    (∀ out ∈ [romanSyl, phoneticSyl, soundexSyl, thaiSyl], out s = .ok (b!"(" ++ m ++ b!")")) ∧
    rawSyl s = .ok (b!"(" ++ m ++ b!")@" ++ toStringInt s.endPos) := by
  have hl' : s.isLiteral = true := (isLiteral_iff s).mpr hl
  have hb : ¬ ceq s Syl.blank = true := by rw [isBlank_iff]; exact fun hb => hl hb.1
  have hout : outputLiteral s.literal = .ok (b!"(" ++ m ++ b!")") := by
    unfold outputLiteral; rw [ht]; rfl
  constructor
  · intro out ho
    simp only [List.mem_cons, List.not_mem_nil, or_false] at ho
    rcases ho with rfl | rfl | rfl | rfl
    · rw [romanSyl, if_neg hb, if_pos hl', hout]
    · rw [phoneticSyl, if_neg hb, if_pos hl', hout]
    · rw [soundexSyl, if_neg hb, if_pos hl', hout]
    · simp only [thaiSyl, hl', if_true, hout]
  · rw [rawSyl, if_neg hb, if_pos hl', hout, ok_bind, pure_eq]
    simp

example : ∃ d e, (Parser.new (fun _ => []) false).parseWord thaiCType b!"กา😀กา" = .ok d ∧
    e ∈ d.mFrom ∧ e.val.literal = u!"😀" := by
  obtain ⟨d, hd, h⟩ := parsesTo_spec (n := 50) (w := u!"กา😀กา") (dict := none) (brk := [])
    (P := fun d => d.mFrom.any fun e => decide (e.val.literal = u!"😀")) (by decide +kernel)
  obtain ⟨e, he, h⟩ := List.any_eq_true.mp h
  exact ⟨d, e, hd, he, of_decide_eq_true h⟩

/-! ## C39: everything can be printed -/

/-- Every label is a valid syllable or a non-empty well-formed literal; none is a blank. -/
theorem C39_labels (hct : ct.Ok) (hw : fromBytes word = .ok w) (hd : Holds p.exceptDict look) (hg : GoodLook look)
    (h : p.parseWord ct word = .ok d) (e : Entry Syl) (he : e ∈ d.mFrom) :
    (ValidSyl e.val ∨ (e.val.literal ≠ [] ∧ GoodUtf16 e.val.literal)) ∧ ¬ IsBlank e.val := by
  have main : ValidSyl e.val ∨ e.val.literal ≠ [] := by
    have h' := h
    rw [C37_word p word w hw] at h'
    obtain ⟨-, -, -, -, -, e', h1, h2, h3, hf⟩ := edge_inv hct hg hd h' he
    have hlit : e'.val.literal = e.val.literal := ((Syl.eq_iff _ _).mp h3).1
    have hgap : ∀ {i j : Nat}, IsGap ct w i j → piece w i j ≠ [] := by
      intro i j hg h0
      have := congrArg List.length h0
      unfold piece at this
      rw [List.length_take, List.length_drop] at this
      have h1 := hg.lt
      have h2 := hg.le
      simp at this; omega
    rcases hf with hf | ⟨e0, q, hf, -, -, -, -, -, rfl⟩
    · cases hf with
      | gap hg _ => exact .inr (by rw [← hlit]; exact hgap hg)
      | dot => exact .inr (by rw [← hlit]; simp [Syl.lit])
      | syl hv _ => exact .inl (valid_of_ceq h3 hv)
    · cases hf with
      | gap hg _ => exact .inr (by rw [← hlit]; exact hgap hg)
      | dot => exact .inr (by rw [← hlit]; simp [Syl.lit, Syl.setEndPos])
      | syl hv _ => exact .inl (valid_of_ceq h3 (hv.setEndPos _))
  refine ⟨main.imp id fun hl => ⟨hl, C53_utf16 hct hw hd hg h e he hl⟩, fun hb => ?_⟩
  rcases main with hv | hl
  · exact hv.iCons1 hb.2.1
  · exact hl hb.1

/-- Every notation prints every label, as a non-empty text. -/
theorem C39_prints (hct : ct.Ok) (hw : fromBytes word = .ok w) (hd : Holds p.exceptDict look) (hg : GoodLook look)
    (h : p.parseWord ct word = .ok d) (e : Entry Syl) (he : e ∈ d.mFrom) (out : SylOutput)
    (ho : out ∈ [rawSyl, romanSyl, phoneticSyl, soundexSyl, thaiSyl]) : ∃ t, out e.val = .ok t ∧ t ≠ [] := by
  refine C24_prints out ho e.val ?_
  rcases (C39_labels hct hw hd hg h e he).1 with h | h
  · exact .inl h
  · exact .inr (.inr h)

/-- The text a notation prints. -/
def textOf (out : SylOutput) (s : Syl) : Str := match out s with | .ok t => t | _ => []

theorem textOf_eq {out : SylOutput} {s : Syl} {t : Str} (h : out s = .ok t) : out s = .ok (textOf out s) := by
  unfold textOf; rw [h]

theorem mem_of_maxPath {d : PronunDAG} {n : Int} {q : List (Entry Syl)} (h : MaxPath d n q) :
    ∀ e ∈ q, e ∈ d.mFrom := by
  induction h with
  | last he _ => intro e h; rw [List.mem_singleton] at h; subst h; exact (mem_outEdges.mp he).1
  | step he _ ih =>
    intro e h
    rcases List.mem_cons.mp h with rfl | h
    · exact (mem_outEdges.mp he).1
    · exact ih e h

/-- The delimited output of the whole DAG: one line per pronunciation, its syllables separated by the
delimiter. -/
theorem C39_delimited (hct : ct.Ok) (hw : fromBytes word = .ok w) (hd : Holds p.exceptDict look) (hg : GoodLook look)
    (h : p.parseWord ct word = .ok d) (out : SylOutput)
    (ho : out ∈ [rawSyl, romanSyl, phoneticSyl, soundexSyl, thaiSyl]) (delim : Byte) :
    ∃ ss, PronunDAG.sylStrings d 0 = .ok ss ∧
      delimDag out delim d = .ok (ss.flatMap fun s => joinWith delim (s.map (textOf out)) ++ b!"\n") := by
  obtain ⟨hb, ha⟩ := C38_acyclic hct hw hd hg h
  obtain ⟨ps, h1, -, h3⟩ := C15_listing d hb ha
  refine ⟨_, h1, ?_⟩
  have hp : ∀ e ∈ d.mFrom, out e.val = .ok (textOf out e.val) := fun e he => by
    obtain ⟨t, ht, -⟩ := C39_prints hct hw hd hg h e he out ho
    exact textOf_eq ht
  rw [delimDag, h1, ok_bind]
  have hm : ∀ l ∈ ps.map fun q => q.map fun e => e.val, ∀ s ∈ l, ∃ e ∈ d.mFrom, e.val = s := by
    intro l hl s hs
    obtain ⟨q, hq, rfl⟩ := List.mem_map.mp hl
    obtain ⟨e, he, rfl⟩ := List.mem_map.mp hs
    exact ⟨e, mem_of_maxPath ((h3 q).mp hq) e he, rfl⟩
  rw [C20_list out (textOf out) delim _ fun l hl s hs _ => by
    obtain ⟨e, he, rfl⟩ := hm l hl s hs; exact hp e he]
  have hgr : ∀ l : List Syl, (∀ s ∈ l, ¬ IsBlank s) → groups l = [l] := by
    intro l
    induction l with
    | nil => intro _; rfl
    | cons a l ih =>
      intro hb
      rw [groups, if_neg (hb a (by simp)), ih fun s hs => hb s (by simp [hs])]
  congr 1
  refine List.flatMap_congr fun l hl => ?_
  rw [hgr l fun s hs => by obtain ⟨e, he, rfl⟩ := hm l hl s hs; exact (C39_labels hct hw hd hg h e he).2]
  rfl

/-- The romanized output of the whole DAG: one line per pronunciation, hyphens by the Royal Institute rule. -/
theorem C39_roman (hct : ct.Ok) (hw : fromBytes word = .ok w) (hd : Holds p.exceptDict look) (hg : GoodLook look)
    (h : p.parseWord ct word = .ok d) :
    ∃ ss, PronunDAG.sylStrings d 0 = .ok ss ∧
      romanDag false d = .ok (ss.flatMap fun s => hyphenated (textOf romanSyl) s ++ b!"\n") := by
  obtain ⟨hb, ha⟩ := C38_acyclic hct hw hd hg h
  obtain ⟨ps, h1, -, h3⟩ := C15_listing d hb ha
  refine ⟨_, h1, ?_⟩
  have hp : ∀ e ∈ d.mFrom, romanSyl e.val = .ok (textOf romanSyl e.val) := fun e he => by
    obtain ⟨t, ht, -⟩ := C39_prints hct hw hd hg h e he romanSyl (by simp)
    exact textOf_eq ht
  rw [romanDag, h1, ok_bind]
  refine linesOf_ok _ _ _ fun l hl => ?_
  obtain ⟨q, hq, rfl⟩ := List.mem_map.mp hl
  have hmp := (h3 q).mp hq
  have hm := mem_of_maxPath hmp
  refine C27_hyphen_partial (textOf romanSyl) _ ?_ ?_ ?_
  · cases hmp <;> simp
  · intro s hs
    obtain ⟨e, he, rfl⟩ := List.mem_map.mp hs
    exact hp e (hm e he)
  · intro s hs
    obtain ⟨e, he, rfl⟩ := List.mem_map.mp hs
    exact (C39_labels hct hw hd hg h e (hm e he)).2

/-- Text that may stand in JSON as it is gives well-formed JSON output, plain (if there is a pronunciation)
and grouped. -/
theorem C39_json (hct : ct.Ok) (hw : fromBytes word = .ok w) (hd : Holds p.exceptDict look) (hg : GoodLook look)
    (h : p.parseWord ct word = .ok d) (hj : JsonSafe w) (out : SylOutput)
    (ho : out ∈ [rawSyl, romanSyl, phoneticSyl, soundexSyl, thaiSyl]) :
    (d.mFrom ≠ [] → ∃ ss t, PronunDAG.sylStrings d 0 = .ok ss ∧ jsonDag out d = .ok t ∧
      readJson t = some (jsonOf (textOf out) ss)) ∧
    ∃ f latt t, PronunDAG.fracDAG d = .ok f ∧ FracDAG.lattice f = .ok latt ∧
      gjsonDag out d = .ok t ∧ readJson t = some (jsonOfLatt (textOf out) latt) := by
  obtain ⟨hb, ha⟩ := C38_acyclic hct hw hd hg h
  have hp : ∀ e ∈ d.mFrom, out e.val = .ok (textOf out e.val) ∧ JsonSafe (textOf out e.val) := fun e he => by
    have : ∃ t, out e.val = .ok t ∧ t ≠ [] ∧ JsonSafe t := by
      refine C21_safe out ho e.val ?_
      rcases (C39_labels hct hw hd hg h e he).1 with hv | ⟨hl, hu⟩
      · exact .inl hv
      · refine .inr (.inr ⟨hl, hu, ?_⟩)
        obtain ⟨i, j, -, -, -, hlit, -⟩ := literal_piece hct hw hd hg h e he hl
        rw [hlit]
        intro b hb
        exact hj b (List.mem_of_mem_drop (List.mem_of_mem_take hb))
    obtain ⟨t, h1, -, h2⟩ := this
    unfold textOf
    rw [h1]
    exact ⟨rfl, h2⟩
  refine ⟨fun hne => ?_, C22_dag_partial out (textOf out) d ha ?_ hp⟩
  · have h0 : d.outEdges 0 ≠ [] := by
      intro h0
      exact hne ((C38_nonempty hct hw hd hg h).mp ((C15_empty d ha).mpr h0))
    obtain ⟨ps, t, h2, h3, h4, h5⟩ := C21_dag_partial out (textOf out) d hb ha h0 hp
    obtain ⟨ps', h1', h2', h3'⟩ := C15_listing d hb ha
    unfold jsonDag at h4
    rw [h1', ok_bind] at h4
    have hj' := C21_json_partial out (textOf out) (ps'.map fun q => q.map fun e => e.val) (by
        intro h0'
        rw [h0'] at h1'
        exact h0 ((C15_empty d ha).mp h1'))
      (by
        intro s hs
        obtain ⟨q, hq, rfl⟩ := List.mem_map.mp hs
        cases (h3' q).mp hq <;> simp)
      (by
        intro s hs x hx
        obtain ⟨q, hq, rfl⟩ := List.mem_map.mp hs
        obtain ⟨e, he, rfl⟩ := List.mem_map.mp hx
        exact hp e (mem_of_maxPath ((h3' q).mp hq) e he))
    obtain ⟨t', ht', hr'⟩ := hj'
    exact ⟨_, t', h1', by rw [jsonDag, h1', ok_bind, ht'], hr'⟩
  · rintro u ⟨e, he, ht⟩
    obtain ⟨hm, hk⟩ := mem_outEdges.mp he
    obtain ⟨-, p1, p2, -⟩ := C38_edges hct hw hd hg h e hm
    rw [ht] at p2
    have : place 0 = 0 := rfl
    omega

example : JsonSafe u!"กา 123" ∧ (∃ d, parseU16 thaiCType u!"กา 123" none [] = .ok d ∧ d.mFrom.length = 2) := by
  refine ⟨by decide, ?_⟩
  obtain ⟨d, hd, h⟩ := parsesTo_spec (n := 50) (w := u!"กา 123") (dict := none) (brk := [])
    (P := fun d => decide (d.mFrom.length = 2)) (by decide +kernel)
  exact ⟨d, hd, of_decide_eq_true h⟩

end
end Thpronun
