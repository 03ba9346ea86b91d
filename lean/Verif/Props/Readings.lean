import Verif.Props.Shipped
import Verif.Lemmas.ParserReading

/-! # Readings: C41, and what C42, C43 and C54 rest on

Steps, derivations and readings are those of `Spec/Parser.lean`. -/

namespace Thpronun
open Res Spec DAG

variable {ct : CType} {w : U16Str} {brk : List Int} {look : List Nat → Option Str} {p : Parser} {word : Str}
  {d : PronunDAG}

/-! ## C41: word segmentation -/

theorem nextBreak_mem_le (hs : brk.Pairwise (· < ·)) {b : Int} (hb : b ∈ brk) {q : Nat} (hq : (q : Int) < b) :
    nextBreak w brk q ≤ b := by
  unfold nextBreak
  induction brk with
  | nil => cases hb
  | cons a l ih =>
    rw [List.find?_cons]
    split
    · rcases List.mem_cons.mp hb with rfl | hb
      · exact le_rfl
      · exact ((List.pairwise_cons.mp hs).1 b hb).le
    · rename_i ha
      rcases List.mem_cons.mp hb with rfl | hb
      · simp [hq] at ha
      · exact ih (List.pairwise_cons.mp hs).2 hb

/-- With a break right after the leading vowel of แก the vowel still takes the consonant behind the break. -/
theorem C41_false : ∃ d e, (Parser.new (fun _ => [1]) true).parseWord thaiCType b!"แก" = .ok d ∧
    e ∈ d.mFrom ∧ e.val.literal = [] ∧ e.key = 0 ∧ e.target = 2 := by
  obtain ⟨d, hd, h⟩ := parsesTo_spec (n := 10) (w := u!"แก") (dict := none) (brk := [1])
    (P := fun d => d.mFrom.any fun e => decide (e.val.literal = [] ∧ e.key = 0 ∧ e.target = 2)) (by decide +kernel)
  obtain ⟨e, he, h⟩ := List.any_eq_true.mp h
  exact ⟨d, e, hd, he, of_decide_eq_true h⟩

/-- A period behind a break is added to the syllable before it. -/
theorem C41_dot_false : ∃ d e, (Parser.new (fun _ => [2]) true).parseWord thaiCType b!"กา." = .ok d ∧
    e ∈ d.mFrom ∧ e.val.literal = [] ∧ e.key = 0 ∧ e.target = 3 := by
  obtain ⟨d, hd, h⟩ := parsesTo_spec (n := 10) (w := u!"กา.") (dict := none) (brk := [2])
    (P := fun d => d.mFrom.any fun e => decide (e.val.literal = [] ∧ e.key = 0 ∧ e.target = 3)) (by decide +kernel)
  obtain ⟨e, he, h⟩ := List.any_eq_true.mp h
  exact ⟨d, e, hd, he, of_decide_eq_true h⟩

/-- A syllable that begins before a break ends at the break or before, except for the two cases above: a period
right behind the break is added to it; a leading vowel other than SARA E right before the break takes the
consonant behind it, and then possibly a period. (Missing: these cases, see `C41_false`, `C41_dot_false`.) -/
theorem C41_partial (hct : ct.Ok) (hw : fromBytes word = .ok w) (hd : Holds p.exceptDict look) (hg : GoodLook look)
    (h : p.parseWord ct word = .ok d) (hs : (findBreaks w p.thBrk).Pairwise (· < ·))
    (e : Entry Syl) (he : e ∈ d.mFrom) (hl : e.val.literal = []) (b : Nat) (hb : (b : Int) ∈ findBreaks w p.thBrk)
    (hlt : place e.key < 2 * b) :
    place e.target ≤ 2 * b ∨
    (w[b]? = some ch!"." ∧ e.target = (b : Int) + 1) ∨
    ((∃ c, w[b - 1]? = some c ∧ ct.isLdVowel c = true ∧ c ≠ UTH.SARA_E) ∧ 0 < b ∧
      2 * ((b : Int) - 1) ≤ place e.key ∧
      (e.target = (b : Int) + 1 ∨ (e.target = (b : Int) + 2 ∧ w[b + 1]? = some ch!"."))) := by
  rw [C37_word p word w hw] at h
  generalize findBreaks w p.thBrk = brk at *
  obtain ⟨hk0, -, -, -, -, e', h1, h2, h3, hf⟩ := edge_inv hct hg hd h he
  have hlit : e'.val.literal = [] := by rw [((Syl.eq_iff _ _).mp h3).1]; exact hl
  rw [← h1] at hlt hk0 ⊢
  rw [← h2]
  have nolit : ∀ {x : Entry Syl}, Fact ct w brk x → x.val.literal = [] → Within ct w brk x := by
    intro x hx hn
    cases hx with
    | @gap i j hg _ =>
      have hn : piece w i j = [] := hn
      have h1 := hg.lt
      have h2 := hg.le
      have := congrArg List.length hn
      simp [piece] at this
      omega
    | dot _ => cases hn
    | syl _ hw => exact hw
  have hbase : ((base e'.key : Nat) : Int) < b := by unfold base; omega
  have hnb := nextBreak_mem_le (w := w) hs hb hbase
  have hbk : 2 * ((base e'.key : Nat) : Int) ≤ place e'.key := by unfold base; omega
  rcases hf with hf | ⟨e0, q, hf, ht, hq, hdot, hd1, hd2, rfl⟩
  · rcases nolit hf hlit with hw | ⟨⟨c, hc, hld, hne⟩, hn, ht⟩
    · left; omega
    · by_cases hb2 : (base e'.key : Int) + 2 ≤ b
      · left
        rw [ht, show ((base e'.key : Int) + 2) = ((base e'.key + 2 : Nat) : Int) by push_cast; rfl, place_nat]
        push_cast; omega
      · have hbb : b = base e'.key + 1 := by omega
        subst hbb
        refine .inr (.inr ⟨⟨c, by simpa using hc, hld, hne⟩, by omega, by push_cast; omega, .inl ?_⟩)
        rw [ht]; push_cast; omega
  · simp only at *
    have pl : place ((q : Int) + 1) = 2 * ((q : Int) + 1) := by
      have := place_nat (q + 1); push_cast at this; exact this
    rw [pl]
    rcases nolit hf hlit with hw | ⟨⟨c, hc, hld, hne⟩, hn, ht'⟩
    · rw [ht, place_nat] at hw
      by_cases hqb : (q : Int) + 1 ≤ b
      · left; omega
      · have : q = b := by omega
        subst this
        exact .inr (.inl ⟨hdot, rfl⟩)
    · rw [ht] at ht'
      by_cases hqb : (q : Int) + 1 ≤ b
      · left; omega
      · by_cases hqb : q = b
        · subst hqb
          exact .inr (.inl ⟨hdot, rfl⟩)
        · have hbb : b = base e0.key + 1 := by omega
          have hqq : q = b + 1 := by omega
          subst hqq
          refine .inr (.inr ⟨⟨c, by rw [hbb]; simpa using hc, hld, hne⟩, by omega, by omega, .inr ⟨?_, hdot⟩⟩)
          push_cast; omega

/-- At a break that is not followed by a period and not preceded by a leading vowel (other than SARA E) no
syllable crosses. -/
theorem C41_clean (hct : ct.Ok) (hw : fromBytes word = .ok w) (hd : Holds p.exceptDict look) (hg : GoodLook look)
    (h : p.parseWord ct word = .ok d) (hs : (findBreaks w p.thBrk).Pairwise (· < ·))
    (b : Nat) (hb : (b : Int) ∈ findBreaks w p.thBrk) (hdot : w[b]? ≠ some ch!".")
    (hv : ∀ c, w[b - 1]? = some c → ct.isLdVowel c = true → c = UTH.SARA_E)
    (e : Entry Syl) (he : e ∈ d.mFrom) (hl : e.val.literal = []) :
    ¬ (place e.key < 2 * b ∧ 2 * b < place e.target) := by
  rintro ⟨h1, h2⟩
  rcases C41_partial hct hw hd hg h hs e he hl b hb h1 with h' | ⟨h', -⟩ | ⟨⟨c, hc, hld, hne⟩, -⟩
  · omega
  · exact hdot h'
  · exact hne (hv c hc hld)

/-- Non-vacuous: กากา with a break in the middle. -/
example : ∃ d, (Parser.new (fun _ => [2]) true).parseWord thaiCType b!"กากา" = .ok d ∧ d.mFrom ≠ [] ∧
    (findBreaks u!"กากา" (Parser.new (fun _ => [2]) true).thBrk).Pairwise (· < ·) ∧ (u!"กากา")[2]? ≠ some ch!"." ∧
    ∀ c, (u!"กากา")[2 - 1]? = some c → thaiCType.isLdVowel c = true → c = UTH.SARA_E := by
  obtain ⟨d, hd, h⟩ := parsesTo_spec (n := 10) (w := u!"กากา") (dict := none) (brk := [2])
    (P := fun d => !d.mFrom.isEmpty) (by decide +kernel)
  refine ⟨d, hd, (by intro h0; rw [h0] at h; cases h), by simp [findBreaks, Parser.new], by decide, ?_⟩
  intro c hc; cases hc; decide

/-! ## C42: the exception dictionary -/

/-- Where some dictionary word matches, a reading continues with a pronunciation of one of the matching words and
with nothing else. -/
theorem step_words {q t : Nat} {l : Bool} {es : List (Entry Syl)} (hst : IsStop ct w brk q t)
    (hm : dictAt ct w look q t ≠ []) (c : Config) :
    Step ct w look brk ⟨q, l, es⟩ c ↔ ∃ m ∈ dictAt ct w look q t, ∃ strs, SylString.makeSylStrings m.2 = .ok strs ∧
      ∃ str ∈ strs, c = ⟨m.1, false, es ++ pathEdges q (SylString.shiftEndPos str q)⟩ := by
  constructor
  · intro h
    cases h with
    | gap hg => exact absurd hst.token (hg.no q le_rfl hg.lt)
    | dict hst' hm' hmk hs =>
      obtain rfl := hst.unique hst'
      exact ⟨_, hm', _, hmk, _, hs, rfl⟩
    | abbr hst' hd' =>
      obtain rfl := hst.unique hst'
      exact absurd hd' hm
    | syl hst' hpl =>
      obtain rfl := hst.unique hst'
      exact absurd hpl.1 hm
    | dot hst' hpl =>
      obtain rfl := hst.unique hst'
      exact absurd hpl.1 hm
  · rintro ⟨m, hm', strs, hmk, str, hs, rfl⟩
    exact .dict hst hm' hmk hs

/-- The dictionary words that count at `q`: those that spell the text from `q` on and end at the end of the token or
before a consonant or leading vowel inside it. -/
theorem mem_dictAt_iff (q t : Nat) (ht : t ≤ w.length) (m : Nat × Str) :
    m ∈ dictAt ct w look q t ↔ q < m.1 ∧ m.1 ≤ t ∧ look (piece w q m.1) = some m.2 ∧
      (m.1 = t ∨ ∃ c, w[m.1]? = some c ∧ (ct.isCons c = true ∨ ct.isLdVowel c = true)) := by
  constructor
  · intro h
    obtain ⟨h1, h2, h3, h4, h5⟩ := mem_dictAt h
    refine ⟨h1, h2, h4, ?_⟩
    rcases Nat.eq_or_lt_of_le h2 with h | h
    · exact .inl h
    · obtain ⟨c, hc, hs⟩ := h5 h
      refine .inr ⟨c, hc, ?_⟩
      unfold isSylStart at hs
      simpa using hs
  · rintro ⟨h1, h2, h3, h4⟩
    unfold dictAt prefixMatches
    refine List.mem_filter.mpr ⟨List.mem_filterMap.mpr ⟨m.1 - q, ?_, ?_⟩, ?_⟩
    · rw [List.mem_range'_1]; omega
    · unfold piece at h3
      rw [h3]
      simp only [Option.map_some]
      rw [Nat.add_sub_cancel' h1.le]
    · rcases h4 with h4 | ⟨c, hc, h4⟩
      · simp [h4]
      · simp [h2, hc, isSylStart, h4]

/-- The first syllables of the result, when a dictionary word matches at the beginning: first syllables of
pronunciations of the matching words (with the period after the word, if the syllable is all of it). -/
theorem start_words (hct : ct.Ok) (hw : fromBytes word = .ok w) (hd : Holds p.exceptDict look) (hg : GoodLook look)
    (h : p.parseWord ct word = .ok d) {t : Nat} (hst : IsStop ct w (findBreaks w p.thBrk) 0 t)
    (hm : dictAt ct w look 0 t ≠ []) (e : Entry Syl) (he : e ∈ d.outEdges 0) :
    ∃ m ∈ dictAt ct w look 0 t, ∃ strs, SylString.makeSylStrings m.2 = .ok strs ∧ ∃ s ss, s :: ss ∈ strs ∧
      ceq s e.val = true ∧ (e.target = s.endPos ∨
        (e.target = s.endPos + 1 ∧ ∃ i : Nat, s.endPos = i ∧ w[i]? = some ch!".")) := by
  rw [C37_word p word w hw] at h
  generalize findBreaks w p.thBrk = brk at *
  obtain ⟨hem, hek⟩ := mem_outEdges.mp he
  obtain ⟨es, e', ⟨c, hder, hlen, rfl⟩, he', h1, h2, h3⟩ := edge_reading hct hd h hem
  have key : ∀ c, Deriv ct w look brk c → (c = ⟨0, false, []⟩) ∨ (0 < c.pos ∧ ∀ e ∈ c.edges, e.key = 0 →
      ∃ m ∈ dictAt ct w look 0 t, ∃ strs, SylString.makeSylStrings m.2 = .ok strs ∧ ∃ s ss, s :: ss ∈ strs ∧
        ceq s e.val = true ∧ (e.target = s.endPos ∨
          (e.target = s.endPos + 1 ∧ ∃ i : Nat, s.endPos = i ∧ w[i]? = some ch!"."))) := by
    intro c hc
    induction hc with
    | refl => exact .inl rfl
    | @tail c c' hcc hs ih =>
      right
      have hpos := (hs.lt hct)
      refine ⟨by omega, fun e he hk => ?_⟩
      rcases ih with rfl | ⟨hp, ih⟩
      · obtain ⟨m, hmm, strs, hmk, str, hstr, rfl⟩ := (step_words hst hm c').mp hs
        have hch := (dictEdges hst hmm hg hmk hstr).1
        simp only [List.nil_append] at he
        cases str with
        | nil => cases he
        | cons s ss =>
          have he0 := chain_key hch he hk
          subst he0
          refine ⟨m, hmm, strs, hmk, s, ss, hstr, ceq_setEndPos _ _, .inl ?_⟩
          show SylString.shiftPos _ _ = _
          unfold SylString.shiftPos
          simp
      · rcases step_new hct hg hs with ⟨new, hnew, hch⟩ | ⟨hnew, hp', hdot, hno⟩
        · rw [hnew] at he
          rcases List.mem_append.mp he with he | he
          · exact ih e he hk
          · have := (hch.mem he).1
            rw [hk, place_nat] at this
            have h0 : place 0 = 0 := rfl
            omega
        · rw [hnew] at he
          obtain ⟨x, hx, rfl⟩ := List.mem_map.mp he
          unfold stretch at hk ⊢
          split
          · rename_i htx
            rw [if_pos htx] at hk
            obtain ⟨m, hmm, strs, hmk, s, ss, hstr, hce, hor⟩ := ih x hx hk
            refine ⟨m, hmm, strs, hmk, s, ss, hstr, LawfulCppEq.trans hce (ceq_setEndPos _ _), ?_⟩
            rcases hor with hor | ⟨hor, i, hi, hdi⟩
            · exact .inr ⟨by simp only; omega, c.pos, by omega, hdot⟩
            · -- a period before this one: an abbreviation, not a period after a syllable
              exfalso
              have : c.pos - 1 = i := by omega
              rw [this] at hno
              exact hno hdi
          · rename_i htx
            rw [if_neg htx] at hk
            exact ih x hx hk
  rcases key c hder with rfl | ⟨-, hall⟩
  · cases he'
  · obtain ⟨m, hmm, strs, hmk, s, ss, hstr, hce, hor⟩ := hall e' he' (h1.trans hek)
    rw [h2] at hor
    exact ⟨m, hmm, strs, hmk, s, ss, hstr, LawfulCppEq.trans hce h3, hor⟩

/-- Dictionaries with the same matches in the text give the same result, bit for bit: nothing else of a dictionary
has any influence. -/
theorem sameWords_parse (hct : ct.Ok) {dict dict' : Option Dict} {look' : List Nat → Option Str} (hd : Holds dict look)
    (hd' : Holds dict' look')
    (h : ∀ q t, IsStop ct w brk q t → ∀ m, q < m ∧ m ≤ t → look (piece w q m) = look' (piece w q m)) :
    parseU16 ct w dict brk = parseU16 ct w dict' brk := by
  refine parse_sameDict hct hd hd' fun q t hst => ?_
  unfold dictAt prefixMatches
  rw [List.filter_filterMap, List.filter_filterMap]
  refine List.filterMap_congr fun n hn => ?_
  rw [List.mem_range'_1] at hn
  by_cases hnt : q + n ≤ t
  · have := h q t hst (q + n) ⟨by omega, hnt⟩
    unfold piece at this
    rw [Nat.add_sub_cancel_left] at this
    rw [this]
  · have none_of : ∀ o : Option Str, Option.filter (fun m : Nat × Str => decide (m.1 ≤ t) &&
        (decide (m.1 = t) || Option.any (isSylStart ct) w[m.1]?)) (o.map fun s => (q + n, s)) = none := by
      rintro (_ | x)
      · rfl
      · simp [Option.filter, hnt]
    rw [none_of, none_of]

/-- A dictionary without a match in the text has no influence. -/
theorem noWords_parse (hct : ct.Ok) {dict : Option Dict} (hd : Holds dict look)
    (h : ∀ q t, IsStop ct w brk q t → dictAt ct w look q t = []) :
    parseU16 ct w dict brk = parseU16 ct w none brk := by
  refine parse_sameDict hct hd holds_none fun q t hst => ?_
  rw [h q t hst]
  unfold dictAt prefixMatches
  simp

theorem one_step (hlen : 0 < w.length) {P : List (Entry Syl) → Prop}
    (first : ∀ c, Step ct w look brk ⟨0, false, []⟩ c ↔ ∃ es, P es ∧ c = ⟨w.length, false, es⟩) (es : List (Entry Syl)) :
    Reading ct w look brk es ↔ P es := by
  have stuck : ∀ c c', w.length ≤ c.pos → ¬ Step ct w look brk c c' := by
    intro c c' hc hs
    cases hs with
    | gap hg => have := hg.lt; have := hg.le; simp only at hc; omega
    | dict h => have := h.lt; have := h.le; simp only at hc; omega
    | abbr h => have := h.lt; have := h.le; simp only at hc; omega
    | syl h => have := h.lt; have := h.le; simp only at hc; omega
    | dot h => have := h.lt; have := h.le; simp only at hc; omega
  have all : ∀ c, Deriv ct w look brk c → c = ⟨0, false, []⟩ ∨ ∃ es, P es ∧ c = ⟨w.length, false, es⟩ := by
    intro c hc
    induction hc with
    | refl => exact .inl rfl
    | @tail c c' _ hs ih =>
      rcases ih with rfl | ⟨str, hstr, rfl⟩
      · exact .inr ((first _).mp hs)
      · exact absurd hs (stuck _ _ le_rfl)
  constructor
  · rintro ⟨c, hc, hl, rfl⟩
    rcases all c hc with rfl | ⟨str, hstr, rfl⟩
    · exact absurd hl (by simp only; omega)
    · exact hstr
  · intro h
    exact ⟨_, .tail .refl ((first _).mpr ⟨es, h, rfl⟩), le_rfl, rfl⟩

theorem whole_readings (hst : IsStop ct w brk 0 w.length) {data : Str}
    (hm : dictAt ct w look 0 w.length = [(w.length, data)]) {strs : List SylString}
    (hmk : SylString.makeSylStrings data = .ok strs) (es : List (Entry Syl)) :
    Reading ct w look brk es ↔ ∃ str ∈ strs, es = pathEdges 0 str := by
  have hne : dictAt ct w look 0 w.length ≠ [] := by rw [hm]; simp
  refine one_step hst.lt (P := fun es => ∃ str ∈ strs, es = pathEdges 0 str) (fun c => ?_) es
  rw [step_words hst hne, hm]
  simp only [List.mem_singleton, exists_eq_left, List.nil_append, Nat.cast_zero, pathEdges_zero]
  constructor
  · rintro ⟨strs', h1, str, h2, rfl⟩
    rw [hmk] at h1; cases h1
    exact ⟨_, ⟨str, h2, rfl⟩, rfl⟩
  · rintro ⟨es, ⟨str, h2, rfl⟩, rfl⟩
    exact ⟨strs, hmk, str, h2, rfl⟩

/-- A word in the dictionary (and no shorter match): the result has exactly the edges of the dictionary
pronunciations. -/
theorem word_edges (hct : ct.Ok) (hw : fromBytes word = .ok w) (hd : Holds p.exceptDict look)
    (h : p.parseWord ct word = .ok d) (hst : IsStop ct w (findBreaks w p.thBrk) 0 w.length) {data : Str}
    (hm : dictAt ct w look 0 w.length = [(w.length, data)]) {strs : List SylString}
    (hmk : SylString.makeSylStrings data = .ok strs) (u v : Int) (x : Syl) :
    Edge d u v x ↔ Edge (PronunDAG.ofStrings strs) u v x := by
  rw [C37_word p word w hw] at h
  obtain ⟨-, hc⟩ := parseU16_correct hct hd h
  rw [hc, C16_ofStrings]
  constructor
  · rintro ⟨es, hr, hin⟩
    obtain ⟨str, hstr, rfl⟩ := (whole_readings hst hm hmk es).mp hr
    have := in_pathEdges.mp hin
    have h2 : Edge ([str].foldl (fun d s => PronunDAG.addSylString d 0 s) DAG.empty) u v x := this
    rw [edge_foldl_addSylString] at h2
    rcases h2 with ⟨e, he, -⟩ | ⟨s, hs, y, hy⟩
    · cases he
    · rw [List.mem_singleton] at hs
      subst hs
      exact ⟨_, hstr, y, hy⟩
  · rintro ⟨str, hstr, y, hy⟩
    refine ⟨pathEdges 0 str, (whole_readings hst hm hmk _).mpr ⟨str, hstr, rfl⟩, in_pathEdges.mpr ?_⟩
    show Edge ([str].foldl (fun d s => PronunDAG.addSylString d 0 s) DAG.empty) u v x
    rw [edge_foldl_addSylString]
    exact .inr ⟨str, by simp, y, hy⟩

/-- With a single dictionary pronunciation this is the pronunciation listed. -/
theorem word_single (hct : ct.Ok) (hw : fromBytes word = .ok w) (hd : Holds p.exceptDict look) (hg : GoodLook look)
    (h : p.parseWord ct word = .ok d) (hst : IsStop ct w (findBreaks w p.thBrk) 0 w.length) {data : Str}
    (hm : dictAt ct w look 0 w.length = [(w.length, data)]) {str : SylString}
    (hmk : SylString.makeSylStrings data = .ok [str]) : PronunDAG.sylStrings d 0 = .ok [str] := by
  rw [C37_word p word w hw] at h
  have hr := whole_readings hst hm hmk
  have hmm : (w.length, data) ∈ dictAt ct w look 0 w.length := by rw [hm]; simp
  have hne : pathEdges 0 str ≠ [] := by
    intro h0
    have := (dictEdges hst hmm hg hmk (List.mem_singleton.mpr rfl)).1
    simp only [Nat.cast_zero, pathEdges_zero, h0] at this
    have h1 : (0 : Int) = w.length := this
    have := hst.lt
    omega
  obtain ⟨path, hp, hf⟩ := single_reading hct hg hd h (es0 := pathEdges 0 str) ((hr _).mpr ⟨str, by simp, rfl⟩)
    (fun es h => by obtain ⟨s, hs, rfl⟩ := (hr es).mp h; rw [List.mem_singleton] at hs; rw [hs]) hne
  rw [hp]
  congr 2
  obtain ⟨strs', hmk', hall⟩ := hg _ _ (mem_dictAt hmm).2.2.2.1
  rw [hmk] at hmk'; cases hmk'
  have hv := (hall str (by simp)).1
  clear hp hne hr hmk hall hmm hm
  have hends := pathEdges_ends 0 str
  revert hf hends
  generalize (0 : Int) = n
  intro hf hends
  induction str generalizing n path with
  | nil => cases hf; rfl
  | cons s ss ih =>
    cases hf with
    | @cons x _ xs _ hx hxs =>
      rw [List.map_cons]
      congr 1
      · exact carries_valid hx (hv s (by simp)) rfl
      · exact ih xs (fun s hs => hv s (by simp [hs])) _ hxs (fun e he => hends e (by simp [pathEdges, he]))

theorem isStop_whole (hne : w ≠ []) (htok : ∀ c ∈ w, isThaiTokenChar ct c = true) (hb : ∀ b ∈ brk, b ≤ 0 ∨ b = w.length) :
    IsStop ct w brk 0 w.length := by
  have hnb : nextBreak w brk 0 = w.length := by
    unfold nextBreak
    cases hf : brk.find? fun b => decide (b > ((0 : Nat) : Int)) with
    | none => rfl
    | some b =>
      have h1 := List.find?_some hf
      rcases hb b (List.mem_of_find?_eq_some hf) with h | h
      · simp only [decide_eq_true_eq] at h1; omega
      · exact h
  refine ⟨List.length_pos_of_ne_nil hne, le_rfl, by rw [hnb], fun i _ hi => ?_, .inl hnb.symm⟩
  exact ⟨w[i], List.getElem?_eq_getElem hi, htok _ (List.getElem_mem _)⟩

/-! ## C43: no reading is lost -/

/-- The edges of the result are exactly the edges of the readings. -/
theorem reading_edges_iff (hct : ct.Ok) (hw : fromBytes word = .ok w) (hd : Holds p.exceptDict look)
    (h : p.parseWord ct word = .ok d) (u v : Int) (x : Syl) :
    Edge d u v x ↔ ∃ es, Reading ct w look (findBreaks w p.thBrk) es ∧
      ∃ e ∈ es, e.key = u ∧ e.target = v ∧ ceq e.val x = true := by
  rw [C37_word p word w hw] at h
  exact (parseU16_correct hct hd h).2 u v x

/-- Every reading is among the listed pronunciations: the same syllables with the same end positions. -/
theorem reading_listed (hct : ct.Ok) (hw : fromBytes word = .ok w) (hd : Holds p.exceptDict look) (hg : GoodLook look)
    (h : p.parseWord ct word = .ok d) (hwne : w ≠ []) {es : List (Entry Syl)}
    (hr : Reading ct w look (findBreaks w p.thBrk) es) :
    ∃ ss, PronunDAG.sylStrings d 0 = .ok ss ∧ ∃ s ∈ ss,
      List.Forall₂ (fun x e => ceq x e.val = true ∧ x.endPos = e.target) s es := by
  obtain ⟨hb, ha⟩ := C38_acyclic hct hw hd hg h
  have hall := fun e he => C38_edges hct hw hd hg h e he
  rw [C37_word p word w hw] at h
  have hch := (reading_inv hct hg hr).chain
  have hes : es ≠ [] := by
    rintro rfl
    have h0 : (0 : Int) = w.length := hch
    exact hwne (List.length_eq_zero_iff.mp (by omega))
  have hend : d.outEdges w.length = [] := by
    by_contra hne
    obtain ⟨e, he⟩ := List.exists_mem_of_ne_nil _ hne
    obtain ⟨hm, hk⟩ := mem_outEdges.mp he
    obtain ⟨-, -, h1, h2, -⟩ := hall e hm
    rw [hk, place_nat] at h1
    omega
  obtain ⟨path, hp, hf⟩ := chain_maxPath (fun e he => (hall e he).1) hend hch hes
    (fun e he => reading_edge hct hd h hr he)
  obtain ⟨ps, h1, -, h3⟩ := C15_listing d hb ha
  refine ⟨_, h1, path.map Entry.val, List.mem_map.mpr ⟨path, (h3 path).mpr hp, rfl⟩, ?_⟩
  rw [List.forall₂_map_left_iff]
  exact hf.imp fun x e h => ⟨h.2.2.1, h.2.2.2⟩

/-- Readings go forward, from the beginning to the end. -/
theorem reading_forward (hct : ct.Ok) (hg : GoodLook look) {es : List (Entry Syl)} (hr : Reading ct w look brk es) :
    (∀ e ∈ es, e.val.endPos = e.target) ∧ Forward 0 w.length (es.map Entry.val) := by
  obtain ⟨hch, -, -, hends⟩ := reading_inv hct hg hr
  clear hr
  refine ⟨hends, ?_⟩
  simp only at hch hends
  revert hch
  generalize (0 : Int) = n
  intro hch
  induction es generalizing n with
  | nil => exact hch
  | cons e es ih =>
    have he : e.val.endPos = e.target := hends e (by simp)
    exact ⟨by rw [he]; exact hch.2.1, by rw [he]; exact ih (fun x hx => hends x (by simp [hx])) _ hch.2.2⟩

/-! ## C54: are the listed pronunciations readings? -/

private def raak : Syl := ⟨.RA, SC.NONE, VW.AA, .KOK, .THO, [], 2⟩
private def khlaa : Syl := ⟨.KHA, SC.LA, VW.AA, .NONE, .SAMAN, [], 5⟩

/-- ราคลา: the readings รา-คลา (with a cluster) and ราค-คะ-ลา (with a linking ค, which excludes the cluster) share
the node before ค, and the listing mixes them to ราค-คลา, which is not a reading. -/
theorem mixed_listing : ∃ d ss s, (Parser.new (fun _ => []) false).parseWord thaiCType b!"ราคลา" = .ok d ∧
    PronunDAG.sylStrings d 0 = .ok ss ∧ s ∈ ss ∧
    ¬ ∃ es, Reading thaiCType u!"ราคลา" (fun _ => none) [] es ∧
      List.Forall₂ (fun x e => ceq x e.val = true ∧ x.endPos = e.target) s es := by
  obtain ⟨d, hd, h⟩ := parsesTo_spec (n := 60) (w := u!"ราคลา") (dict := none) (brk := [])
    (P := fun d => match PronunDAG.sylStrings d 0 with | .ok ss => decide ([raak, khlaa] ∈ ss) | _ => false)
    (by decide +kernel)
  have hss : ∃ ss, PronunDAG.sylStrings d 0 = .ok ss ∧ [raak, khlaa] ∈ ss := by
    cases hs : PronunDAG.sylStrings d 0 with
    | ok ss => rw [hs] at h; exact ⟨ss, rfl, of_decide_eq_true h⟩
    | _ => rw [hs] at h; cases h
  obtain ⟨ss, hs1, hs2⟩ := hss
  refine ⟨d, ss, [raak, khlaa], hd, hs1, hs2, ?_⟩
  rintro ⟨es, ⟨c, hc, hlen, rfl⟩, hf⟩
  have hl : Letters thaiCType u!"ราคลา" := ⟨by decide, by decide⟩
  have g0 : ∀ ems, grammar thaiCType u!"ราคลา" 0 5 false ch!"ร" = .ok ems → ∀ em ∈ ems, em.pos = 2 →
      em.p.eConsClass = .KOK → em.linked = true := by
    intro ems h
    have : (match grammar thaiCType u!"ราคลา" 0 5 false ch!"ร" with
      | .ok ems => decide (∀ em ∈ ems, em.pos = 2 → em.p.eConsClass = .KOK → em.linked = true)
      | _ => false) = true := by decide +kernel
    rw [h] at this
    exact of_decide_eq_true this
  have g2 : ∀ ems, grammar thaiCType u!"ราคลา" 2 5 true ch!"ค" = .ok ems → ∀ em ∈ ems, em.p.iCons2 ≠ SC.LA := by
    intro ems h
    have : (match grammar thaiCType u!"ราคลา" 2 5 true ch!"ค" with
      | .ok ems => decide (∀ em ∈ ems, em.p.iCons2 ≠ SC.LA)
      | _ => false) = true := by decide +kernel
    rw [h] at this
    exact of_decide_eq_true this
  have inv : (c.edges = [] → c = ⟨0, false, []⟩) ∧
      (∀ e, c.edges = [e] → e.target = 2 → e.val.eCons = .KOK → c.pos = 2 ∧ c.linked = true) ∧
      (∀ e1 e2, c.edges = [e1, e2] → e1.target = 2 → e1.val.eCons = .KOK → e2.val.iCons2 ≠ SC.LA) := by
    clear hf hlen
    induction hc with
    | refl => exact ⟨fun _ => rfl, fun e h => (by cases h), fun _ _ h => (by cases h)⟩
    | @tail c c' _ hs ih =>
      obtain ⟨x, ems, em, hx, hg, hem, rfl⟩ := (hl.step_iff thaiCType_ok).mp hs
      have hne : sylEdges c.pos em ≠ [] := by unfold sylEdges; split <;> simp
      have one : ∀ e, sylEdges c.pos em = [e] → e.target = em.pos ∧ e.val = em.p.toSyl em.pos := by
        intro e h
        unfold sylEdges at h
        split at h
        · cases h
        · cases h; exact ⟨rfl, rfl⟩
      refine ⟨fun h => absurd (List.append_eq_nil_iff.mp h).2 hne, fun e h h2 h3 => ?_, fun e1 e2 h h2 h3 => ?_⟩
      · simp only at h
        cases hce : c.edges with
        | nil =>
          obtain rfl := ih.1 hce
          obtain ⟨h4, h5⟩ := one e h
          cases hx
          rw [h4] at h2
          rw [h5] at h3
          have h2 : em.pos = 2 := by omega
          exact ⟨h2, g0 ems hg em hem h2 h3⟩
        | cons a l =>
          rw [hce] at h
          have := (List.append_eq_nil_iff.mp (List.cons.inj h).2).2
          exact absurd this hne
      · simp only at h
        cases hce : c.edges with
        | nil =>
          obtain rfl := ih.1 hce
          rw [List.nil_append] at h
          unfold sylEdges at h
          split at h
          · cases h
            simp only [spanPos] at h2
            omega
          · cases h
        | cons a l =>
          rw [hce] at h
          obtain ⟨h4, h5⟩ := List.cons.inj h
          subst h4
          cases l with
          | nil =>
            obtain ⟨hp, hlk⟩ := ih.2.1 a hce h2 h3
            obtain ⟨-, h6⟩ := one e2 h5
            rw [h6]
            rw [hp] at hx hg
            rw [hlk] at hg
            cases hx
            exact g2 ems hg em hem
          | cons b l =>
            have := (List.append_eq_nil_iff.mp (List.cons.inj h5).2).2
            exact absurd this hne
  generalize hes : c.edges = es at hf inv
  cases hf with
  | @cons _ e1 _ _ h1 h' =>
    cases h' with
    | @cons _ e2 _ _ h2 h' =>
      cases h'
      refine inv.2.2 e1 e2 rfl h1.2.symm ?_ ?_
      · exact (((Syl.eq_iff _ _).mp h1.1).2 rfl).2.2.2.1.symm
      · exact (((Syl.eq_iff _ _).mp h2.1).2 rfl).2.1.symm

/-- If the word has only one reading, it is the only pronunciation listed. (Missing: words with several readings,
whose parts may be mixed, see `mixed_listing`; every syllable listed is one of a reading by `reading_edges_iff`.) -/
theorem one_reading_listed (hct : ct.Ok) (hw : fromBytes word = .ok w) (hd : Holds p.exceptDict look) (hg : GoodLook look)
    (h : p.parseWord ct word = .ok d) (hwne : w ≠ []) {es0 : List (Entry Syl)}
    (hr : Reading ct w look (findBreaks w p.thBrk) es0)
    (hu : ∀ es, Reading ct w look (findBreaks w p.thBrk) es → es = es0) :
    ∃ s, PronunDAG.sylStrings d 0 = .ok [s] ∧
      List.Forall₂ (fun x e => ceq x e.val = true ∧ x.endPos = e.target) s es0 := by
  rw [C37_word p word w hw] at h
  have hne : es0 ≠ [] := by
    rintro rfl
    have h0 : (0 : Int) = w.length := (reading_inv hct hg hr).chain
    exact hwne (List.length_eq_zero_iff.mp (by omega))
  obtain ⟨path, h1, h2⟩ := single_reading hct hg hd h hr hu hne
  refine ⟨_, h1, ?_⟩
  rw [List.forall₂_map_left_iff]
  exact h2.imp fun x e h => ⟨h.2.2.1, h.2.2.2⟩

end Thpronun
