import Verif.Lemmas.Notation
import Verif.Lemmas.FracAlts
import Verif.Props.Dag
import Verif.Props.Frac

/-! # Properties C20–C24: output formats -/

namespace Thpronun
open Spec

private def kaa : Syl := ⟨.KA, SC.NONE, VW.AA, .NONE, .SAMAN, [], 2⟩
private def ang : Syl := ⟨.A, SC.NONE, VW.A, .KONG, .SAMAN, [], 5⟩
private def bl : Syl := Syl.blankAt 6

/-! ## C20: delimited output -/

/-- One pronunciation: groups separated by one space per blank, each joined by the delimiter. -/
theorem C20_string (out : SylOutput) (txt : Syl → Str) (delim : Byte) (l : SylString)
    (h : ∀ s ∈ l, ¬ IsBlank s → out s = .ok (txt s)) :
    delimStr out delim l =
      .ok (joinWith 32 ((groups l).map fun g => joinWith delim (g.map txt))) :=
  (delimLoop_groups out txt delim l h).1

/-- A list of pronunciations: each on its own line, in order. -/
theorem C20_list (out : SylOutput) (txt : Syl → Str) (delim : Byte) (ls : List SylString)
    (h : ∀ l ∈ ls, ∀ s ∈ l, ¬ IsBlank s → out s = .ok (txt s)) :
    delimList out delim ls = .ok (ls.flatMap fun l =>
      joinWith 32 ((groups l).map fun g => joinWith delim (g.map txt)) ++ b!"\n") :=
  linesOf_ok _ _ _ fun l hl => C20_string out txt delim l (h l hl)

/-- A DAG: one line per maximal path. -/
theorem C20_dag (out : SylOutput) (txt : Syl → Str) (delim : Byte) (d : PronunDAG) (hb : Built d)
    (ha : Acyclic d) (h : ∀ e ∈ d.mFrom, ¬ IsBlank e.val → out e.val = .ok (txt e.val)) :
    ∃ ps : List (List (Entry Syl)), ps.Nodup ∧ (∀ p, p ∈ ps ↔ MaxPath d 0 p) ∧
      delimDag out delim d = .ok (ps.flatMap fun p =>
        joinWith 32 ((groups (p.map Entry.val)).map fun g => joinWith delim (g.map txt)) ++ b!"\n") := by
  obtain ⟨ps, h1, h2, h3⟩ := C15_listing d hb ha
  refine ⟨ps, h2, h3, ?_⟩
  have := C20_list out txt delim (ps.map fun p => p.map Entry.val) ?_
  · rw [delimDag, h1, Res.ok_bind, this, List.flatMap_map]
  · intro l hl s hs
    obtain ⟨p, hp, rfl⟩ := List.mem_map.mp hl
    obtain ⟨e, he, rfl⟩ := List.mem_map.mp hs
    exact h e (((h3 p).mp hp).mem he)

example : (groups [kaa, ang, bl, kaa]).length = 2 ∧
    delimStr phoneticSyl ch!"-" [kaa, ang, bl, kaa] = .ok b!"kaa0-ahng0 kaa0" ∧
    ∀ s ∈ [kaa, ang, bl, kaa], ¬ IsBlank s → ∃ t, phoneticSyl s = .ok t := by
  refine ⟨by decide, by decide, fun s hs hb => ?_⟩
  obtain ⟨t, h, _⟩ := (Res.sat_iff _ _).mp
    ((by decide : ∀ s ∈ [kaa, ang, bl, kaa], (phoneticSyl s).Sat fun _ => True) s hs)
  exact ⟨t, h⟩

/-! ## C21: JSON -/

/-- The JSON value that a list of pronunciations should be printed as. -/
def jsonOf (txt : Syl → Str) (l : List SylString) : J :=
  .arr (l.map fun s => .arr (s.map fun x => .str (txt x)))

/-- Reading back the output gives the texts, if they need no escapes and nothing is empty.
(Missing from the full property: texts with quotes, backslashes or control characters, where it is
false, see `C21_quote_false`; the empty list, see C23.) -/
theorem C21_json_partial (out : SylOutput) (txt : Syl → Str) (l : List SylString) (hl : l ≠ [])
    (hne : ∀ s ∈ l, s ≠ []) (h : ∀ s ∈ l, ∀ x ∈ s, out x = .ok (txt x) ∧ JsonSafe (txt x)) :
    ∃ t, jsonList out l = .ok t ∧ readJson t = some (jsonOf txt l) := by
  rw [jsonList_eq_bracket _ _ hl]
  obtain ⟨t, ht, hr⟩ := (Res.sat_iff _ _).mp (reads_bracket (jsonStr out)
    (fun s => J.arr (s.map fun x => J.str (txt x))) l fun s hs =>
      jsonStr_reads out txt s (hne s hs) (h s hs))
  exact ⟨t, ht, readJson_reads hr⟩

/-- Texts of valid syllables, blanks and literals without quote, backslash and control characters
never need escapes, in any notation. -/
theorem C21_safe (out : SylOutput) (ho : out ∈ [rawSyl, romanSyl, phoneticSyl, soundexSyl, thaiSyl])
    (s : Syl) (h : ValidSyl s ∨ IsBlank s ∨ (s.literal ≠ [] ∧ GoodUtf16 s.literal ∧ JsonSafe s.literal)) :
    ∃ t, out s = .ok t ∧ t ≠ [] ∧ JsonSafe t := by
  suffices (out s).Sat SafeNe by
    obtain ⟨t, h1, h2⟩ := (Res.sat_iff _ _).mp this
    exact ⟨t, h1, h2⟩
  rcases h with h | h | ⟨h, hg, hs⟩
  · simp only [List.mem_cons, List.not_mem_nil, or_false] at ho
    rcases ho with rfl | rfl | rfl | rfl | rfl
    · exact raw_text s h
    · exact roman_text s h
    · exact phonetic_text s h
    · exact soundex_text s h
    · exact thai_text s h
  · have hb : ceq s Syl.blank = true := (isBlank_iff s).mpr h
    have hw : SafeNe b!" " := by decide
    simp only [List.mem_cons, List.not_mem_nil, or_false] at ho
    rcases ho with rfl | rfl | rfl | rfl | rfl
    · rw [rawSyl, if_pos hb]; exact hw
    · rw [romanSyl, if_pos hb]; exact hw
    · rw [phoneticSyl, if_pos hb]; exact hw
    · rw [soundexSyl, if_pos hb]; exact hw
    · have hl : ¬ s.isLiteral = true := by rw [isLiteral_iff, h.1]; simp
      simp only [thaiSyl, hl, h.2.2.2.1]
      exact hw
  · have hl : s.isLiteral = true := (isLiteral_iff s).mpr h
    have hb : ¬ ceq s Syl.blank = true := by
      rw [isBlank_iff]; exact fun hb => h hb.1
    obtain ⟨cs, hc⟩ := hg
    have hout : (outputLiteral s.literal).Sat SafeNe := by
      rcases literal_cases s.literal with ⟨cs', h1, h2⟩ | ⟨h1, _⟩
      · rw [h2, Res.sat_ok]
        rw [hc] at h1
        cases h1
        refine ⟨by simp, ((by decide : JsonSafe b!"(").append (enc8_safe cs ?_)).append (by decide)⟩
        intro c hcs
        obtain ⟨_, he⟩ := utf16Decode_inv _ _ hc
        have hsub : ∀ u ∈ utf16EncodeOne c, 32 ≤ u ∧ u ≠ 34 ∧ u ≠ 92 := fun u hu =>
          hs u (by rw [← he]; exact List.mem_flatMap.mpr ⟨c, hcs, hu⟩)
        unfold utf16EncodeOne at hsub
        split at hsub
        · exact hsub c (by simp)
        · omega
      · rw [hc] at h1; simp at h1
    simp only [List.mem_cons, List.not_mem_nil, or_false] at ho
    rcases ho with rfl | rfl | rfl | rfl | rfl
    · rw [rawSyl, if_neg hb, if_pos hl]
      refine Res.Sat.bind hout fun t ht => ?_
      rw [Res.pure_eq, Res.sat_ok]
      refine SafeNe.append (SafeNe.append ht (by decide)) ?_
      intro b hb
      have := toStringInt_chars _ b hb
      omega
    · rw [romanSyl, if_neg hb, if_pos hl]; exact hout
    · rw [phoneticSyl, if_neg hb, if_pos hl]; exact hout
    · rw [soundexSyl, if_neg hb, if_pos hl]; exact hout
    · simp only [thaiSyl, hl, if_true]; exact hout

/-- A DAG with at least one pronunciation: the JSON text denotes exactly its maximal paths. -/
theorem C21_dag_partial (out : SylOutput) (txt : Syl → Str) (d : PronunDAG) (hb : Built d)
    (ha : Acyclic d) (h0 : d.outEdges 0 ≠ [])
    (h : ∀ e ∈ d.mFrom, out e.val = .ok (txt e.val) ∧ JsonSafe (txt e.val)) :
    ∃ (ps : List (List (Entry Syl))) (t : Str), ps.Nodup ∧ (∀ p, p ∈ ps ↔ MaxPath d 0 p) ∧
      jsonDag out d = .ok t ∧ readJson t = some (jsonOf txt (ps.map fun p => p.map Entry.val)) := by
  obtain ⟨ps, h1, h2, h3⟩ := C15_listing d hb ha
  have hne : (ps.map fun p => p.map fun e => e.val) ≠ [] := by
    intro he
    rw [he] at h1
    exact h0 ((C15_empty d ha).mp h1)
  have hne' : ∀ s ∈ ps.map (fun p => p.map Entry.val), s ≠ [] := by
    intro s hs
    obtain ⟨p, hp, rfl⟩ := List.mem_map.mp hs
    have := (h3 p).mp hp
    cases this <;> simp
  have hsafe : ∀ l ∈ ps.map (fun p => p.map Entry.val), ∀ x ∈ l,
      out x = .ok (txt x) ∧ JsonSafe (txt x) := by
    intro l hl s hs
    obtain ⟨p, hp, rfl⟩ := List.mem_map.mp hl
    obtain ⟨e, he, rfl⟩ := List.mem_map.mp hs
    exact h e (((h3 p).mp hp).mem he)
  obtain ⟨t, ht, hr⟩ := C21_json_partial out txt (ps.map fun p => p.map Entry.val) hne hne' hsafe
  exact ⟨ps, t, h2, h3, by rw [jsonDag, h1, Res.ok_bind]; exact ht, hr⟩

example : jsonList phoneticSyl [[kaa, ang], [kaa]] = .ok b!"[[\"kaa0\",\"ahng0\"],[\"kaa0\"]]" ∧
    (∀ s ∈ [[kaa, ang], [kaa]], ∀ x ∈ s, (phoneticSyl x).Sat fun t => JsonSafe t) := by
  decide

/-- C21 is false for literals with a quotation mark: the output is no JSON text. -/
theorem C21_quote_false : ∃ (l : List SylString) (t : Str), (∀ s ∈ l, s ≠ []) ∧
    jsonList phoneticSyl l = .ok t ∧ readJson t = none :=
  ⟨[[Syl.lit 1 u!"\""]], b!"[[\"(\")\"]]", by decide, by decide, by decide⟩

/-- Worse, it may be read as something else: one literal is read as two. -/
theorem C21_injection_false : ∃ (s : Syl) (t : Str),
    jsonList phoneticSyl [[s]] = .ok t ∧
    readJson t = some (.arr [.arr [.str b!"(a", .str b!"b)"]]) :=
  ⟨Syl.lit 5 u!"a\",\"b", b!"[[\"(a\",\"b)\"]]", by decide, by
    simp [readJson, readValue, readElems, readString, skipWs]⟩

/-! ## C22: grouped JSON -/

/-- The JSON value that a lattice should be printed as. -/
def jsonOfLatt (txt : Syl → Str) (l : PronunLatt) : J :=
  .arr (l.map fun chain => .arr (chain.map fun frac => .arr (frac.alts.map fun s =>
    .arr (s.map fun x => .str (txt x)))))

/-- Reading back the output gives the lattice, the empty one included. (Missing: texts that need
escapes, as in C21; alternatives without syllables, which `fracDAG().lattice()` never contains.) -/
theorem C22_lattice_partial (out : SylOutput) (txt : Syl → Str) (l : PronunLatt)
    (h : ∀ chain ∈ l, ∀ frac ∈ chain, ∀ s ∈ frac.alts,
      s ≠ [] ∧ ∀ x ∈ s, out x = .ok (txt x) ∧ JsonSafe (txt x)) :
    ∃ t, gjsonLatt out l = .ok t ∧ readJson t = some (jsonOfLatt txt l) := by
  obtain ⟨t, ht, hr⟩ := (Res.sat_iff _ _).mp (reads_bracket _ (fun (chain : PronunChain) =>
      J.arr (chain.map fun frac => .arr (frac.alts.map fun s => .arr (s.map fun x => .str (txt x)))))
    l fun chain hc => reads_bracket (fun (frac : PronunFrac) => bracketList (jsonStr out) frac.alts)
      (fun frac => J.arr (frac.alts.map fun s => .arr (s.map fun x => .str (txt x)))) chain
      fun frac hf => reads_bracket (jsonStr out) (fun s => J.arr (s.map fun x => .str (txt x)))
        frac.alts fun s hs => jsonStr_reads out txt s (h chain hc frac hf s hs).1
          (h chain hc frac hf s hs).2)
  exact ⟨t, ht, readJson_reads hr⟩

/-- A DAG: the output is always defined and denotes the DAG's lattice. -/
theorem C22_dag_partial (out : SylOutput) (txt : Syl → Str) (d : PronunDAG) (ha : Acyclic d)
    (hroot : ∀ u, ¬ Arrow d u 0)
    (h : ∀ e ∈ d.mFrom, out e.val = .ok (txt e.val) ∧ JsonSafe (txt e.val)) :
    ∃ f latt t, PronunDAG.fracDAG d = .ok f ∧ FracDAG.lattice f = .ok latt ∧
      gjsonDag out d = .ok t ∧ readJson t = some (jsonOfLatt txt latt) := by
  obtain ⟨_, f, latt, _, hf, hl, _⟩ := C17_same_readings d ha hroot
  have hP := fracDAG_alts (P := fun s => s ≠ [] ∧ ∀ x ∈ s, out x = .ok (txt x) ∧ JsonSafe (txt x))
    ?_ d fun e he => ⟨by simp, by simpa using h e he⟩
  · rw [hf, Res.satP_ok] at hP
    have hL := lattice_alts ?_ f hP
    · rw [hl, Res.satP_ok] at hL
      obtain ⟨t, ht, hr⟩ := C22_lattice_partial out txt latt hL
      exact ⟨f, latt, t, hf, hl, by simp only [gjsonDag, hf, hl, Res.ok_bind, ht], hr⟩
    · exact fun a b ha hb => ⟨by simp [ha.1], fun x hx => (List.mem_append.mp hx).elim (ha.2 x) (hb.2 x)⟩
  · exact fun a b ha hb => ⟨by simp [ha.1], fun x hx => (List.mem_append.mp hx).elim (ha.2 x) (hb.2 x)⟩

example : gjsonDag phoneticSyl (PronunDAG.ofStrings [[kaa, ang], [{kaa with tone := .EK}, ang]]) =
    .ok b!"[[[[\"kaa0\"],[\"kaa1\"]],[[\"ahng0\"]]]]" := by decide

/-- The empty lattice is printed as the empty array. -/
theorem C22_empty (out : SylOutput) : gjsonLatt out [] = .ok b!"[]" ∧ readJson b!"[]" = some (.arr []) := by
  exact ⟨rfl, rfl⟩

/-- C22 inherits the missing escapes of C21. -/
theorem C22_quote_false : ∃ (l : PronunLatt) (t : Str),
    gjsonLatt phoneticSyl l = .ok t ∧ readJson t = none :=
  ⟨[[PronunFrac.single 1 [Syl.lit 1 u!"\""]]], b!"[[[[\"(\")\"]]]]", by decide, by decide⟩

/-! ## C23: words without pronunciation -/

/-- Plain JSON output of a DAG without pronunciations dereferences the end of an empty list. -/
theorem C23_json_false (out : SylOutput) (d : PronunDAG) (ha : Acyclic d) (h : d.outEdges 0 = []) :
    jsonDag out d = .ub := by
  rw [jsonDag, (C15_empty d ha).mpr h]; rfl

/-- The other formats are defined: nothing, or an empty array. (Missing: plain JSON.) -/
theorem C23_others_partial (out : SylOutput) (delim : Byte) (cap : Bool) (d : PronunDAG)
    (ha : Acyclic d) (h : d.outEdges 0 = []) :
    delimDag out delim d = .ok [] ∧ romanDag cap d = .ok [] := by
  have := (C15_empty d ha).mpr h
  constructor
  · rw [delimDag, this]; rfl
  · rw [romanDag, this]; rfl

/-- In particular for the DAG without any edge, where grouped JSON is defined as well. -/
theorem C23_empty_partial (out : SylOutput) (delim : Byte) (cap : Bool) :
    delimDag out delim DAG.empty = .ok [] ∧ romanDag cap DAG.empty = .ok [] ∧
    gjsonDag out DAG.empty = .ok b!"[]" :=
  ⟨rfl, rfl, rfl⟩

example : (DAG.empty : PronunDAG).outEdges 0 = [] ∧ Acyclic (DAG.empty : PronunDAG) :=
  ⟨rfl, acyclic_of_rank id (by decide)⟩

/-! ## C24: every notation prints every valid syllable -/

/-- Valid syllables, blanks and well-formed literals are printed, as a non-empty text. -/
theorem C24_prints (out : SylOutput) (ho : out ∈ [rawSyl, romanSyl, phoneticSyl, soundexSyl, thaiSyl])
    (s : Syl) (h : ValidSyl s ∨ IsBlank s ∨ (s.literal ≠ [] ∧ GoodUtf16 s.literal)) :
    ∃ t, out s = .ok t ∧ t ≠ [] := by
  rcases h with h | h | ⟨h, hg⟩
  · obtain ⟨t, h1, h2, _⟩ := C21_safe out ho s (.inl h); exact ⟨t, h1, h2⟩
  · obtain ⟨t, h1, h2, _⟩ := C21_safe out ho s (.inr (.inl h)); exact ⟨t, h1, h2⟩
  · have hl : s.isLiteral = true := (isLiteral_iff s).mpr h
    have hb : ¬ ceq s Syl.blank = true := by
      rw [isBlank_iff]; exact fun hb => h hb.1
    obtain ⟨cs, hc⟩ := hg
    have hout : outputLiteral s.literal = .ok (b!"(" ++ enc8 cs ++ b!")") := by
      rcases literal_cases s.literal with ⟨cs', h1, h2⟩ | ⟨h1, _⟩
      · rw [hc] at h1; cases h1; exact h2
      · rw [hc] at h1; simp at h1
    simp only [List.mem_cons, List.not_mem_nil, or_false] at ho
    rcases ho with rfl | rfl | rfl | rfl | rfl
    · exact ⟨b!"(" ++ enc8 cs ++ b!")" ++ b!"@" ++ toStringInt s.endPos,
        by rw [rawSyl, if_neg hb, if_pos hl, hout]; rfl, by simp⟩
    · exact ⟨b!"(" ++ enc8 cs ++ b!")", by rw [romanSyl, if_neg hb, if_pos hl, hout], by simp⟩
    · exact ⟨b!"(" ++ enc8 cs ++ b!")", by rw [phoneticSyl, if_neg hb, if_pos hl, hout], by simp⟩
    · exact ⟨b!"(" ++ enc8 cs ++ b!")", by rw [soundexSyl, if_neg hb, if_pos hl, hout], by simp⟩
    · exact ⟨b!"(" ++ enc8 cs ++ b!")", by simp only [thaiSyl, hl, if_true, hout], by simp⟩

/-- No notation has undefined behaviour: on every syllable each returns or throws. -/
theorem C24_defined (out : SylOutput)
    (ho : out ∈ [rawSyl, romanSyl, phoneticSyl, soundexSyl, thaiSyl]) (s : Syl) :
    (∃ t, out s = .ok t) ∨ ∃ e, out s = .throw e := by
  simp only [List.mem_cons, List.not_mem_nil, or_false] at ho
  rcases ho with rfl | rfl | rfl | rfl | rfl
  · exact raw_defd s
  · exact roman_defd s
  · exact phonetic_defd s
  · exact soundex_defd s
  · exact thai_defd s

/-- Raw and phonetic notation throw exactly for ill-formed literals and for non-blank syllables with
an invalid component. -/
theorem C24_raw_iff (s : Syl) : (∃ t, rawSyl s = .ok t) ↔
    ValidSyl s ∨ IsBlank s ∨ (s.literal ≠ [] ∧ GoodUtf16 s.literal) := raw_ok s

theorem C24_phonetic_iff (s : Syl) : (∃ t, phoneticSyl s = .ok t) ↔
    ValidSyl s ∨ IsBlank s ∨ (s.literal ≠ [] ∧ GoodUtf16 s.literal) := phonetic_ok s

/-- Romanization does not look at the tone. -/
theorem C24_roman_iff (s : Syl) : (∃ t, romanSyl s = .ok t) ↔
    (s.literal = [] ∧ s.iCons1 ≠ .INVALID ∧ s.iCons2 ∈ clusters ∧ s.vowel ∈ vowels) ∨
      IsBlank s ∨ (s.literal ≠ [] ∧ GoodUtf16 s.literal) := roman_ok s

/-- Soundex does not look at cluster and tone. -/
theorem C24_soundex_iff (s : Syl) : (∃ t, soundexSyl s = .ok t) ↔
    (s.literal = [] ∧ s.iCons1 ≠ .INVALID ∧ s.vowel ∈ vowels) ∨
      IsBlank s ∨ (s.literal ≠ [] ∧ GoodUtf16 s.literal) := soundex_ok s

/-- Thai respelling prints a space for every unknown vowel, and a missing tone only throws on a middle
class initial. -/
theorem C24_thai_iff (s : Syl) : (∃ t, thaiSyl s = .ok t) ↔
    (s.literal = [] ∧ (s.vowel ∈ vowels → s.iCons1 ≠ .INVALID ∧ s.iCons2 ∈ clusters ∧
      ¬ (s.tone = .INVALID ∧ s.iCons1 ∈ [InitConsSound.KA, .JA, .DA, .TA, .BA, .PA, .A]))) ∨
      (s.literal ≠ [] ∧ GoodUtf16 s.literal) := thai_ok' s

example : ValidSyl kaa ∧ IsBlank bl ∧ GoodUtf16 u!"a😀" ∧ ¬ GoodUtf16 [0xd83d] := by decide

end Thpronun
