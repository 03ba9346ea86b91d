import Verif.Props.Readings
import Verif.Props.Spelling
import Verif.Lemmas.Rules
import Verif.Spec.Listed

/-! # Properties C40, C42, C43, C46, C54 by the rules

Words, tokens and readings are those of `Spec/Reading.lean`. -/

namespace Thpronun
open Res Spec DAG

variable {ct : CType} {w : U16Str} {brk : List Int} {look : List Nat → Option Str} {p : Parser} {word : Str}
  {d : PronunDAG}

/-! ## C42: the exception dictionary -/

/-- Where a dictionary word stands, a reading continues with a pronunciation of such a word and with nothing else. -/
theorem C42_steps {q t : Nat} {l : Bool} {es : List (Entry Syl)} (hct : ct.Ok) (hst : TokenTo ct w brk q t)
    (hm : ∃ m data, WordAt ct w look q t m data) (c : Config) :
    Rule ct w look brk ⟨q, l, es⟩ c ↔ ∃ m data strs str, WordAt ct w look q t m data ∧ DataIs data strs ∧ str ∈ strs ∧
      c = ⟨m, false, es ++ wordEdges q q str⟩ := by
  have hs := tokenTo_iff.mp hst
  obtain ⟨m, data, hm⟩ := hm
  rw [rule_iff hct, step_words hs (fun h => (by
    have := (wordAt_iff hs.le).mp hm
    rw [h] at this
    cases this))]
  constructor
  · rintro ⟨m, hm, strs, h1, str, h2, rfl⟩
    exact ⟨m.1, m.2, strs, str, (wordAt_iff hs.le).mpr hm, (makeSylStrings_iff _ _).mp h1, h2, by rw [wordEdges_eq]⟩
  · rintro ⟨m, data, strs, str, h0, h1, h2, rfl⟩
    exact ⟨(m, data), (wordAt_iff hs.le).mp h0, strs, (makeSylStrings_iff _ _).mpr h1, str, h2, by rw [wordEdges_eq]⟩

/-- The first syllables of the result, when a dictionary word stands at the beginning: first syllables of
pronunciations of such words (with the period after the word, if the syllable is all of it). -/
theorem C42_start (hct : ct.Ok) (hw : fromBytes word = .ok w) (hd : Holds p.exceptDict look) (hg : GoodLook look)
    (h : p.parseWord ct word = .ok d) {t : Nat} (hst : TokenTo ct w (findBreaks w p.thBrk) 0 t)
    (hm : ∃ m data, WordAt ct w look 0 t m data) (e : Entry Syl) (he : e ∈ d.outEdges 0) :
    ∃ m data strs s ss, WordAt ct w look 0 t m data ∧ DataIs data strs ∧ s :: ss ∈ strs ∧
      ceq s e.val = true ∧ (e.target = s.endPos ∨
        (e.target = s.endPos + 1 ∧ ∃ i : Nat, s.endPos = i ∧ w[i]? = some ch!".")) := by
  have hs := tokenTo_iff.mp hst
  obtain ⟨m, data, hm⟩ := hm
  obtain ⟨m, h1, strs, h2, s, ss, h3, h4⟩ := start_words hct hw hd hg h hs (fun h => (by
    have := (wordAt_iff hs.le).mp hm
    rw [h] at this
    cases this)) e he
  exact ⟨m.1, m.2, strs, s, ss, (wordAt_iff hs.le).mpr h1, (makeSylStrings_iff _ _).mp h2, h3, h4⟩

/-- Dictionaries with the same words in the text give the same result, bit for bit: nothing else of a dictionary
has any influence. -/
theorem C42_local (hct : ct.Ok) {dict dict' : Option Dict} {look' : List Nat → Option Str} (hd : Holds dict look)
    (hd' : Holds dict' look')
    (h : ∀ q t, TokenTo ct w brk q t → ∀ m, q < m ∧ m ≤ t → look (piece w q m) = look' (piece w q m)) :
    parseU16 ct w dict brk = parseU16 ct w dict' brk :=
  sameWords_parse hct hd hd' fun q t hs => h q t (tokenTo_iff.mpr hs)

/-- A dictionary without a word in the text has no influence. -/
theorem C42_nomatch (hct : ct.Ok) {dict : Option Dict} (hd : Holds dict look)
    (h : ∀ q t m data, TokenTo ct w brk q t → ¬ WordAt ct w look q t m data) :
    parseU16 ct w dict brk = parseU16 ct w none brk :=
  noWords_parse hct hd fun q t hs => (noWord_iff hs.le).mp fun m data => h q t m data (tokenTo_iff.mpr hs)

theorem lastData_some {es : List DEntry} {e : DEntry} (he : e ∈ es) : ∃ x, lastData es e.word = some x := by
  unfold lastData
  cases h : es.reverse.find? fun e' => decide (e'.word = e.word) with
  | none =>
    have := List.find?_eq_none.mp h e (List.mem_reverse.mpr he)
    simp at this
  | some a => exact ⟨_, rfl⟩

theorem dictAt_nodup (q t : Nat) : (dictAt ct w look q t).Nodup := by
  unfold dictAt prefixMatches
  refine List.Nodup.filter _ (List.Nodup.filterMap ?_ List.nodup_range')
  intro a a' b hb hb'
  simp only [Option.mem_def, Option.map_eq_some_iff] at hb hb'
  obtain ⟨x, -, rfl⟩ := hb
  obtain ⟨y, -, h⟩ := hb'
  have := (Prod.mk.inj h).1
  omega

theorem dictAt_single (hw : 0 < w.length) {data : Str} (h : look w = some data)
    (hs : ∀ m data, WordAt ct w look 0 w.length m data → m = w.length) :
    dictAt ct w look 0 w.length = [(w.length, data)] := by
  have hp : piece w 0 w.length = w := by unfold piece; simp
  have hmem : ∀ x, x ∈ dictAt ct w look 0 w.length ↔ x = (w.length, data) := by
    intro x
    rw [← wordAt_iff (q := x.1) (data := x.2) le_rfl]
    constructor
    · intro hx
      have h1 := hs _ _ hx
      have h2 := hx.2.2.1
      rw [h1, hp, h] at h2
      cases x
      simp only at h1 h2
      cases h2
      rw [h1]
    · rintro rfl
      exact ⟨hw, le_rfl, by rw [hp]; exact h, le_rfl, .inl rfl⟩
  have hn := dictAt_nodup (ct := ct) (w := w) (look := look) 0 w.length
  cases hl : dictAt ct w look 0 w.length with
  | nil =>
    have := (hmem _).mpr rfl
    rw [hl] at this
    cases this
  | cons a l =>
    rw [hl] at hmem hn
    have ha := (hmem a).mp (by simp)
    cases l with
    | nil => rw [ha]
    | cons b l =>
      have hb := (hmem b).mp (by simp)
      rw [ha, hb] at hn
      simp at hn

/-- A word in the dictionary, no beginning of which is a dictionary word before a new syllable: the result has exactly
the edges of the dictionary pronunciations. -/
theorem C42_word (hct : ct.Ok) (hw : fromBytes word = .ok w) (hd : Holds p.exceptDict look)
    (h : p.parseWord ct word = .ok d) (hst : TokenTo ct w (findBreaks w p.thBrk) 0 w.length) {data : Str}
    (hm : look w = some data) (hs : ∀ m data, WordAt ct w look 0 w.length m data → m = w.length)
    {strs : List SylString} (hmk : DataIs data strs) (u v : Int) (x : Syl) :
    Edge d u v x ↔ Edge (PronunDAG.ofStrings strs) u v x :=
  word_edges hct hw hd h (tokenTo_iff.mp hst) (dictAt_single hst.1 hm hs) ((makeSylStrings_iff _ _).mpr hmk) u v x

/-- With a single dictionary pronunciation this is the pronunciation listed. -/
theorem C42_single (hct : ct.Ok) (hw : fromBytes word = .ok w) (hd : Holds p.exceptDict look) (hg : GoodLook look)
    (h : p.parseWord ct word = .ok d) (hst : TokenTo ct w (findBreaks w p.thBrk) 0 w.length) {data : Str}
    (hm : look w = some data) (hs : ∀ m data, WordAt ct w look 0 w.length m data → m = w.length)
    {str : SylString} (hmk : DataIs data [str]) : PronunDAG.sylStrings d 0 = .ok [str] :=
  word_single hct hw hd hg h (tokenTo_iff.mp hst) (dictAt_single hst.1 hm hs) ((makeSylStrings_iff _ _).mpr hmk)

/-- With the shipped dictionary and without word segmentation, every word of the shipped data that has no shorter
match is pronounced as the data say. -/
theorem C42_shipped (hp : Holds p.exceptDict (lastData exceptEntries)) (hbrk : p.thBrk = none) (e : DEntry)
    (he : e ∈ exceptEntries)
    (hs : ∀ m data, WordAt thaiCType e.word (lastData exceptEntries) 0 e.word.length m data →
      m = e.word.length ∧ data = e.data) :
    ∃ strs, DataIs e.data strs ∧
      ∃ d, p.parseWord thaiCType (e.word.flatMap utf8EncodeOne) = .ok d ∧
        ∀ u v x, Edge d u v x ↔ Edge (PronunDAG.ofStrings strs) u v x := by
  obtain ⟨strs, hmk, -⟩ := C48_readings e he
  have hall : ∀ e ∈ exceptEntries, fromBytes (e.word.flatMap utf8EncodeOne) = .ok e.word ∧ e.word ≠ [] ∧
      (∀ c ∈ e.word, isThaiTokenChar thaiCType c = true) ∧
      (∀ c, e.word.getLast? = some c → thaiCType.isLdVowel c = true → c = UTH.SARA_E) := by
    have h : ∀ e ∈ exceptEntries, fromBytes (e.word.flatMap utf8EncodeOne) = .ok e.word ∧ e.word ≠ [] ∧
      (∀ c ∈ e.word, isThaiTokenChar thaiCType c = true) ∧ ∀ c ∈ e.word.getLast?.toList, thaiCType.isLdVowel c = true → c = UTH.SARA_E := by decide +kernel
    intro e he
    obtain ⟨h1, h2, h3, h4⟩ := h e he
    exact ⟨h1, h2, h3, fun c hc => h4 c (by rw [hc]; simp)⟩
  obtain ⟨hw, hne, htok, hlast⟩ := hall e he
  have hb : findBreaks e.word p.thBrk = [] := by rw [hbrk]; rfl
  obtain ⟨d, hd⟩ := C37_partial thaiCType_ok p _ _ _ hw hp (C48_good _ fun _ h => h).readable
    (by rw [hb]; intro b hb; cases hb) hlast
  have hmk := (makeSylStrings_iff _ _).mp hmk
  refine ⟨strs, hmk, d, hd, fun u v x => ?_⟩
  have hlook : lastData exceptEntries e.word = some e.data := by
    obtain ⟨x, hx⟩ := lastData_some he
    have hp : piece e.word 0 e.word.length = e.word := by unfold piece; simp
    rw [hx, (hs e.word.length x ⟨List.length_pos_of_ne_nil hne, le_rfl, by rw [hp]; exact hx, le_rfl, .inl rfl⟩).2]
  refine C42_word thaiCType_ok hw hp hd (tokenTo_iff.mpr ?_) hlook (fun m data h => (hs m data h).1) hmk u v x
  rw [hb]
  exact isStop_whole hne htok (fun b hb => by cases hb)

/-- "เพชฉลู" of the shipped data. -/
example : ∃ p : Parser, Holds p.exceptDict (lastData exceptEntries) ∧ p.thBrk = none ∧
    ⟨u!"เพชฉลู", b!"P_et3@3,J_a_1@-306,l_U_4@6"⟩ ∈ exceptEntries ∧
    ∀ m data, WordAt thaiCType u!"เพชฉลู" (lastData exceptEntries) 0 6 m data →
      m = 6 ∧ data = b!"P_et3@3,J_a_1@-306,l_U_4@6" := by
  obtain ⟨-, -, p, -, -, h3, h4, -⟩ := C48_dict 0 (Parser.new (fun _ => []) false)
  refine ⟨p, h4, h3, by decide +kernel, fun m data h => ?_⟩
  have := (wordAt_iff (by decide)).mp h
  rw [show dictAt thaiCType u!"เพชฉลู" (lastData exceptEntries) 0 6 = [(6, b!"P_et3@3,J_a_1@-306,l_U_4@6")] by
    decide +kernel, List.mem_singleton] at this
  cases this
  exact ⟨rfl, rfl⟩

/-- Two words, of different lengths. -/
example : WordAt thaiCType u!"ไทรอยด์" (lastData exceptEntries) 0 7 3 b!"s_ay0@3" ∧
    WordAt thaiCType u!"ไทรอยด์" (lastData exceptEntries) 0 7 7 b!"T_ay0@2,r_Cy0@7" := by
  constructor
  · exact (wordAt_iff (by decide)).mpr (by decide +kernel)
  · exact (wordAt_iff (by decide)).mpr (by decide +kernel)

/-! ## C43: no reading is lost -/

/-- Readings go forward, from the beginning to the end. -/
theorem C43_forward (hct : ct.Ok) (hg : GoodLook look) {es : List (Entry Syl)} (hr : RuleReading ct w look brk es) :
    (∀ e ∈ es, e.val.endPos = e.target) ∧ Forward 0 w.length (es.map Entry.val) :=
  reading_forward hct hg ((ruleReading_iff hct).mp hr)

/-! ## C40: other text is passed through -/

/-- Every literal is a piece of the text: a maximal run of other characters, possibly with a period after it counted
in (and lost), or a single period. (Missing: the period, see `C40_false`.) -/
theorem C40_partial (hct : ct.Ok) (hw : fromBytes word = .ok w) (hd : Holds p.exceptDict look) (hg : GoodLook look)
    (h : p.parseWord ct word = .ok d) (e : Entry Syl) (he : e ∈ d.mFrom) (hl : e.val.literal ≠ []) :
    ∃ i j : Nat, e.key = i ∧ i < j ∧ j ≤ w.length ∧ e.val.literal = piece w i j ∧
      ((OtherTo ct w i j ∧ (i = 0 ∨ TextAt ct w (i - 1)) ∧
          (e.target = j ∨ (e.target = (j : Int) + 1 ∧ w[j]? = some ch!"." ∧ w[j - 1]? ≠ some ch!" "))) ∨
        (j = i + 1 ∧ w[i]? = some ch!"." ∧ e.target = j)) := by
  simp only [otherTo_iff, textAt_iff]
  exact literal_piece hct hw hd hg h e he hl

/-! ## C46: abbreviations -/

/-- Where an abbreviation stands and no dictionary word, a reading continues with the letter names and with nothing
else. -/
theorem C46_step (hct : ct.Ok) {q t e : Nat} {l : Bool} {es : List (Entry Syl)} (hst : TokenTo ct w brk q t)
    (hd : ∀ m data, ¬ WordAt ct w look q t m data) (ha : IsAbbr ct w q t e) (c : Config) :
    Rule ct w look brk ⟨q, l, es⟩ c ↔ ∃ new, AbbrNames w q e new ∧ c = ⟨e, false, es ++ new⟩ := by
  have hs := tokenTo_iff.mp hst
  rw [rule_iff hct, abbr_step hct hs ((noWord_iff hs.le).mp hd) ha]
  simp only [abbrNames_iff hct ha]

/-- An abbreviation other than the single period: one to four consonants and a period, or one consonant at the end of
the token, and there are letter names for it. -/
theorem C46_names (hct : ct.Ok) {q t e : Nat} (ha : IsAbbr ct w q t e) (hdot : w[q]? ≠ some ch!".") :
    ∃ cs, cs ≠ [] ∧ cs.length ≤ 4 ∧ (∀ c ∈ cs, ct.isCons c = true) ∧
      ((piece w q e = cs ++ [ch!"."]) ∨ (piece w q e = cs ∧ cs.length = 1 ∧ e = t)) ∧
      ∃ new, AbbrNames w q e new ∧ IsNames q e cs new := by
  obtain ⟨cs, h1, h2, h3, h4, new, h5, h6⟩ := abbr_names hct ha hdot
  exact ⟨cs, h1, h2, h3, h4, new, (abbrNames_iff hct ha).mpr h5, h6⟩

/-- A word consisting of one to four consonants and a period, or of a single consonant, without dictionary word at its
beginning and word break inside: the only pronunciation listed is the letter names in order. -/
theorem C46_word (hct : ct.Ok) (hw : fromBytes word = .ok w) (hd : Holds p.exceptDict look) (hg : GoodLook look)
    {cs : U16Str} (hne : cs ≠ []) (h4 : cs.length ≤ 4) (hc : ∀ c ∈ cs, ct.isCons c = true)
    (hform : w = cs ++ [ch!"."] ∨ (w = cs ∧ cs.length = 1))
    (hb : ∀ b ∈ findBreaks w p.thBrk, b ≤ 0 ∨ b = w.length)
    (hm : ∀ m data, ¬ WordAt ct w look 0 w.length m data) :
    ∃ d names, p.parseWord ct word = .ok d ∧ PronunDAG.sylStrings d 0 = .ok [names] ∧ names.length = cs.length ∧
      ∀ (i : Nat) c s, cs[i]? = some c → names[i]? = some s →
        IsLetterName c (if i + 1 = cs.length then (w.length : Int) else ((i + 1 : Nat) : Int)) s :=
  abbr_word hct hw hd hg hne h4 hc hform hb ((noWord_iff le_rfl).mp hm)

/-- The hypotheses of `C46_word` with the shipped dictionary. -/
example : (∀ c ∈ u!"ผบตร", thaiCType.isCons c = true) ∧
    (∀ m data, ¬ WordAt thaiCType u!"ผบตร." (lastData exceptEntries) 0 5 m data) ∧
    fromBytes b!"ผบตร." = .ok (u!"ผบตร" ++ [ch!"."]) :=
  ⟨by decide +kernel, (noWord_iff (by decide)).mpr (by decide +kernel), by decide +kernel⟩

/-! ## C54: are the listed pronunciations readings? -/

/-- ราคลา: the readings รา-คลา (with a cluster) and ราค-คะ-ลา (with a linking ค, which excludes the cluster) share
the node before ค, and the listing mixes them to ราค-คลา, which is not a reading. -/
theorem C54_false : ∃ d ss s, (Parser.new (fun _ => []) false).parseWord thaiCType b!"ราคลา" = .ok d ∧
    PronunDAG.sylStrings d 0 = .ok ss ∧ s ∈ ss ∧
    ¬ ∃ es, RuleReading thaiCType u!"ราคลา" (fun _ => none) [] es ∧ IsPron s es := by
  simp only [ruleReading_iff thaiCType_ok]
  exact mixed_listing

/-- If the word has only one reading, it is the only pronunciation listed. (Missing: words with several readings,
whose parts may be mixed, see `C54_false`; every syllable listed is one of a reading by `C43_edges`.) -/
theorem C54_partial (hct : ct.Ok) (hw : fromBytes word = .ok w) (hd : Holds p.exceptDict look) (hg : GoodLook look)
    (h : p.parseWord ct word = .ok d) (hwne : w ≠ []) {es0 : List (Entry Syl)}
    (hr : RuleReading ct w look (findBreaks w p.thBrk) es0)
    (hu : ∀ es, RuleReading ct w look (findBreaks w p.thBrk) es → es = es0) :
    ∃ s, PronunDAG.sylStrings d 0 = .ok [s] ∧ IsPron s es0 := by
  simp only [ruleReading_iff hct] at hr hu
  exact one_reading_listed hct hw hd hg h hwne hr hu

end Thpronun
