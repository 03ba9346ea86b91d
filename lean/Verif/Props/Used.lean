import Verif.Lemmas.Used
import Verif.Props.Words
import Verif.Lemmas.AnyDict
import Verif.Props.Entry
import Verif.Props.Failing
import Verif.Props.Listed

/-! # Entries of the dictionary and their words: C97 -/

namespace Thpronun
open Res Spec DAG

variable {ct : CType} {w : U16Str} {word : Str} {look look' : List Nat → Option Str} {brk : List Int} {p : Parser}

/-- Of a dictionary only the words in Thai letters count, whatever the text. -/
theorem C97_text (hct : ct.Ok) {dict dict' : Option Dict} (hd : Holds dict look) (hd' : Holds dict' look')
    (h : ∀ u, (∀ c ∈ u, IsText ct c) → look u = look' u) : parseU16 ct w dict brk = parseU16 ct w dict' brk := by
  refine C42_local hct hd hd' fun q t ht m hm => h _ fun c hc => ?_
  obtain ⟨i, hi, rfl⟩ := List.getElem_of_mem hc
  have hl : i < m - q := by
    unfold piece at hi
    rw [List.length_take] at hi
    omega
  obtain ⟨c, h1, h2⟩ := ht.2.2.1 (q + i) (by omega) (by omega)
  have : (piece w q m)[i]? = some c := by
    unfold piece
    rw [List.getElem?_take_of_lt hl, List.getElem?_drop, h1]
  rw [List.getElem?_eq_getElem hi] at this
  cases this
  exact h2

/-- An entry whose word has a character that is no Thai letter or sign of a syllable (ฯ, ๆ, a digit, …): the generator takes it and
says nothing, and it changes nothing, for no text. -/
theorem C97_dead (hct : ct.Ok) (junk : Byte) (es : List DEntry) (e : DEntry) (hne : es ≠ []) (hes : ∀ x ∈ es ++ [e], GoodEntry x)
    (hsz : ((es ++ [e]).map fun e => e.data.length + 1).sum < 0x80000000) {c : Nat} (hc : c ∈ e.word) (hn : ¬ IsText ct c) (q : Parser) :
    ∃ t b p t' b' p', Gen.genDict junk (es.flatMap entryLine) = .ok (.success t b) ∧
      q.loadExceptDict (Gen.GenResult.file (.success t b)) = .ok (p, true) ∧
      Gen.genDict junk ((es ++ [e]).flatMap entryLine) = .ok (.success t' b') ∧
      q.loadExceptDict (Gen.GenResult.file (.success t' b')) = .ok (p', true) ∧ ∀ word, p'.parseWord ct word = p.parseWord ct word := by
  obtain ⟨t, b, p, h1, h2, h3, h4⟩ := holds_generated junk es hne (fun x hx => hes x (List.mem_append_left _ hx))
    (by rw [List.map_append, List.sum_append] at hsz; omega) q
  obtain ⟨t', b', p', k1, k2, k3, k4⟩ := holds_generated junk (es ++ [e]) (by simp) hes hsz q
  refine ⟨t, b, p, t', b', p', h1, h2, k1, k2, fun word => ?_⟩
  cases hw : fromBytes word with
  | ok w =>
    rw [C37_word p word w hw, C37_word p' word w hw, h3, k3]
    refine C97_text hct k4 h4 fun u hu => ?_
    unfold lastData
    rw [List.reverse_append, List.reverse_singleton, List.singleton_append, List.find?_cons, decide_eq_false]
    rintro rfl
    exact hn (hu c hc)
  | _ => unfold Parser.parseWord; rw [hw]; rfl

/-- เร็วๆ after ตา, with the character ๆ. -/
example : (∀ x ∈ [(⟨u!"ตา", b!"t_A_0@2"⟩ : DEntry)] ++ [⟨u!"เร็วๆ", b!"r_ew0@5"⟩], GoodEntry x) ∧ ch!"ๆ" ∈ u!"เร็วๆ" ∧
    ¬ IsText thaiCType ch!"ๆ" := ⟨by decide +kernel, by decide, by unfold IsText; decide⟩

/-- The characters of the dictionary's alphabet that no word may have in order to be found: ฯ, ๆ, the digits, and some signs. -/
theorem C97_signs : (List.range' 0x0e01 0x5b).filter (fun c => !isThaiTokenChar thaiCType c) =
    u!"ฯ" ++ List.range' 0x0e3a 6 ++ u!"ๆ" ++ List.range' 0x0e4d 15 := by decide +kernel

/-- ฯลฯ: the dictionary has an entry for it, but the parser finds no pronunciation of it. -/
theorem C97_false : ∃ t b p d, Gen.genDict 0 (entryLine ⟨u!"ฯลฯ", b!"l_a_3@3"⟩) = .ok (.success t b) ∧
    (Parser.new (fun _ => []) false).loadExceptDict (Gen.GenResult.file (.success t b)) = .ok (p, true) ∧
    p.parseWord thaiCType b!"ฯลฯ" = .ok d ∧ PronunDAG.sylStrings d 0 = .ok [] ∧
    ∃ s, SylString.makeSylStrings b!"l_a_3@3" = .ok [[s]] ∧ ValidSyl s ∧ s.endPos = (u!"ฯลฯ").length := by
  obtain ⟨t, b, p, h1, h2, h3, h4⟩ := holds_generated 0 [⟨u!"ฯลฯ", b!"l_a_3@3"⟩] (by simp) (by decide +kernel) (by decide +kernel)
    (Parser.new (fun _ => []) false)
  obtain ⟨d, l, k1, k2, k3⟩ := lists_spec (n := 60) (w := u!"ฯลฯ") (Q := fun l => l.isEmpty) (by decide +kernel)
  cases List.isEmpty_iff.mp k3
  refine ⟨t, b, p, d, by simpa using h1, h2, ?_, k2, _, rfl, by decide +kernel, rfl⟩
  rw [C37_word p _ u!"ฯลฯ" (by decide +kernel), h3]
  refine (C97_text thaiCType_ok h4 holds_none fun u hu => ?_).trans k1
  unfold lastData
  rw [List.reverse_singleton, List.find?_cons, decide_eq_false]
  · rfl
  · rintro rfl
    have := hu ch!"ฯ" (by decide)
    revert this
    unfold IsText
    decide

/-- If the text is Thai and a word of the dictionary, without a word break inside, and the dictionary has no shorter word that is taken at
its beginning, then the pronunciations of the entry are listed, and nothing else but what results from crossing over between them.
(Missing: words with other characters, see `C97_dead`; shorter words, see `C97_short_false`.) -/
theorem C97_partial (hct : ct.Ok) (hw : fromBytes word = .ok w) (hd : Holds p.exceptDict look) (hg : GoodLook look) (hne : w ≠ [])
    (ht : ∀ c ∈ w, IsText ct c) (hb : ∀ b ∈ findBreaks w p.thBrk, b ≤ 0 ∨ b = w.length) {data : Str} (hl : look w = some data)
    (hs : ∀ m data, WordAt ct w look 0 w.length m data → m = w.length) :
    ∃ strs d ss, DataIs data strs ∧ p.parseWord ct word = .ok d ∧ PronunDAG.sylStrings d 0 = .ok ss ∧
      (∀ str ∈ strs, ∃ s ∈ ss, SamePron s str) ∧ (∀ s ∈ ss, Route (StepOfOne strs) 0 w.length s) ∧
      ss.Pairwise fun a b => ¬ SamePron a b := by
  obtain ⟨strs, hm, hf⟩ := hg w data hl
  have hdata := (makeSylStrings_iff _ _).mp hm
  have htok : TokenTo ct w (findBreaks w p.thBrk) 0 w.length := by
    refine tokenTo_iff.mpr (isStop_whole hne (fun c hc => ?_) hb)
    obtain ⟨i, hi, rfl⟩ := List.getElem_of_mem hc
    obtain ⟨c, h1, h2⟩ := textAt_iff.mp (⟨w[i], List.getElem?_eq_getElem hi, ht _ hc⟩ : TextAt ct w i)
    rw [List.getElem?_eq_getElem hi] at h1
    cases h1
    exact h2
  have hr : Readable look := fun x data hx => (hg x data hx).imp fun _ h => h.1
  have k := C37_exact hct w p.exceptDict _ look hd hr (fun b h => by rcases hb b h with h | h <;> omega)
  obtain ⟨d, h⟩ : ∃ d, parseU16 ct w p.exceptDict (findBreaks w p.thBrk) = .ok d := by
    rcases k.1 with h | h
    · exact h
    · obtain ⟨c, h1, h2, -, t, h4, h5⟩ := k.2.mp h
      exfalso
      rcases whole_deriv htok hl hdata hs h1 with rfl | ⟨str, -, rfl⟩
      · obtain rfl := (tokenTo_iff.mp h4).unique (tokenTo_iff.mp htok)
        exact h5 _ data ⟨htok.1, Nat.le_refl _, by unfold piece; simpa using hl, Nat.le_refl _, .inl rfl⟩
      · dsimp only at h2
        omega
  obtain ⟨ss, a1, a2, a3, a4⟩ := listing_routes hct hd hg hne h
  have hE := whole_edges htok hl hdata hs
  refine ⟨strs, d, ss, hdata, by rw [C37_word p word w hw]; exact h, a1, fun str hstr => ?_, fun s hs => ?_, a4⟩
  · exact a3 str (within_route (hf str hstr).2 fun a b x hx => (hE a b x).mpr ⟨str, hstr, hx⟩)
  · exact Route.mono (fun a b x hx => (hE a b x).mp hx) (a2 s hs)

/-- If the entry has only one pronunciation, exactly this is listed. -/
theorem C97_one (hct : ct.Ok) (hw : fromBytes word = .ok w) (hd : Holds p.exceptDict look) (hg : GoodLook look) (hne : w ≠ [])
    (ht : ∀ c ∈ w, IsText ct c) (hb : ∀ b ∈ findBreaks w p.thBrk, b ≤ 0 ∨ b = w.length) {data : Str} (hl : look w = some data)
    (hs : ∀ m data, WordAt ct w look 0 w.length m data → m = w.length) {str : List Syl} (hdata : DataIs data [str]) :
    ∃ d s, p.parseWord ct word = .ok d ∧ PronunDAG.sylStrings d 0 = .ok [s] ∧ SamePron s str := by
  obtain ⟨strs, d, ss, h1, h2, h3, h4, h5, h6⟩ := C97_partial hct hw hd hg hne ht hb hl hs
  obtain ⟨strs', hm, hf⟩ := hg w data hl
  have e1 := (makeSylStrings_iff _ _).mpr hdata
  have e2 := (makeSylStrings_iff _ _).mpr h1
  rw [e1] at e2 hm
  cases e2
  cases hm
  have hfw := (hf str (List.mem_singleton_self _)).2
  have key : ∀ s ∈ ss, SamePron s str := fun s hs => route_within hfw (fun a b x hx _ => by
    obtain ⟨_, hm, hx⟩ := hx
    cases List.mem_singleton.mp hm
    exact hx) (h5 s hs)
  obtain ⟨s, hs, -⟩ := h4 str (List.mem_singleton_self _)
  refine ⟨d, s, h2, ?_, key s hs⟩
  rw [h3]
  cases ss with
  | nil => cases hs
  | cons a l =>
    cases l with
    | nil => cases List.mem_singleton.mp hs; rfl
    | cons b l =>
      exact absurd (SamePron.trans (key a (List.mem_cons_self ..)) (SamePron.symm (key b (by simp)))) (List.rel_of_pairwise_cons h6 (by simp))

/-- A dictionary with these entries. -/
private def dictFor (es : List DEntry) : Dict :=
  ⟨some (bankFor (es.reverse.map fun e => (e.word, e.data))).1, some ((bankFor (es.reverse.map fun e => (e.word, e.data))).2 ++ [])⟩

private theorem dictFor_holds (es : List DEntry) (h : ∀ e ∈ es, GoodEntry e) : Holds (some (dictFor es)) (lastData es) := by
  have hl : (fun v => (es.reverse.map fun e => (e.word, e.data)).lookup v) = lastData es := by
    funext v
    unfold lastData
    induction es.reverse with
    | nil => rfl
    | cons e l ih =>
      rw [List.map_cons, List.lookup_cons, List.find?_cons]
      by_cases hv : e.word = v
      · subst hv
        rw [BEq.rfl, decide_eq_true rfl]
        rfl
      · rw [decide_eq_false hv, beq_eq_false_iff_ne.mpr (Ne.symm hv)]
        exact ih
  rw [← hl]
  intro text pos hp
  have := bankFor_look (es.reverse.map fun e => (e.word, e.data)) (fun x hx => by
    obtain ⟨e, he, rfl⟩ := List.mem_map.mp hx
    exact fun h0 => ((h e (List.mem_reverse.mp he)).2.1 0 h0).1 rfl) []
  simpa [Match.new, prefixMatches, dictFor] using reports _ _ this text pos 0 hp

/-- The pronunciations of a text with these entries, if all goes well within reach. -/
private def withEntries (es : List DEntry) (w : U16Str) : Option (List (List Syl)) :=
  match parseU16Fuel thaiCType w 60 (some (dictFor es)) [] with
  | .ok d => match PronunDAG.sylStrings d 0 with
    | .ok ss => some ss
    | _ => none
  | _ => none

private theorem withEntries_spec {es : List DEntry} {w : U16Str} {ss : List (List Syl)} (h : withEntries es w = some ss) :
    ∃ d, parseU16 thaiCType w (some (dictFor es)) [] = .ok d ∧ PronunDAG.sylStrings d 0 = .ok ss := by
  unfold withEntries at h
  split at h <;> try cases h
  rename_i d h3
  split at h <;> try cases h
  rename_i h4
  exact ⟨d, by rw [parseU16_fuel (n := 60) (by rw [h3]; simp), h3], h4⟩

/-- The entries whose words occur in the text. -/
private def entriesIn (es : List DEntry) (w : U16Str) : List DEntry :=
  es.filter fun e => (List.range (w.length + 1)).any fun q => e.word.isPrefixOf (w.drop q)

private theorem entriesIn_last (es : List DEntry) (w : U16Str) (q m : Nat) :
    lastData (entriesIn es w) (piece w q m) = lastData es (piece w q m) := by
  unfold lastData entriesIn
  rw [← List.filter_reverse, List.find?_filter]
  congr 2
  funext e
  by_cases h : e.word = piece w q m
  · rw [decide_eq_true h, h, decide_eq_true_eq]
    refine ⟨?_, rfl⟩
    refine List.any_eq_true.mpr ⟨min q w.length, List.mem_range.mpr (by omega), ?_⟩
    rw [List.isPrefixOf_iff_prefix]
    rcases Nat.le_total q w.length with hq | hq
    · rw [Nat.min_eq_left hq]
      exact List.take_prefix _ _
    · unfold piece
      rw [List.drop_eq_nil_of_le hq, List.take_nil]
      exact List.nil_prefix
  · rw [decide_eq_false h, decide_eq_false_iff_not]
    exact fun h => (nomatch h.2)

/-- What a dictionary with the entries makes of a text, by evaluation with the entries that occur in it. -/
private theorem entries_listing {es : List DEntry} (hg : ∀ e ∈ es, GoodEntry e) {dict : Option Dict} (hd : Holds dict (lastData es))
    {ss : List (List Syl)} (h : withEntries (entriesIn es w) w = some ss) :
    ∃ d, parseU16 thaiCType w dict [] = .ok d ∧ PronunDAG.sylStrings d 0 = .ok ss := by
  obtain ⟨d, h3, h4⟩ := withEntries_spec h
  refine ⟨d, ?_, h4⟩
  rw [← h3]
  exact C42_local thaiCType_ok hd (dictFor_holds _ fun e he => hg e (List.mem_of_mem_filter he)) fun q t _ m _ =>
    (entriesIn_last es w q m).symm

def taEntries : List DEntry := [⟨u!"ตากลม", b!"t_Ak1@3,l_om0@5"⟩, ⟨u!"ตา", b!"t_A_0@2"⟩]

/-- A shorter word of the dictionary that begins the text and is followed by the beginning of a syllable is read too: ตากลม, with
entries for it and for ตา. -/
theorem C97_short_false : ∃ t b p d ss, Gen.genDict 0 (taEntries.flatMap entryLine) = .ok (.success t b) ∧
    (Parser.new (fun _ => []) false).loadExceptDict (Gen.GenResult.file (.success t b)) = .ok (p, true) ∧
    p.parseWord thaiCType b!"ตากลม" = .ok d ∧ PronunDAG.sylStrings d 0 = .ok ss ∧ 1 < ss.length := by
  obtain ⟨t, b, p, h1, h2, h3, h4⟩ := holds_generated 0 taEntries (by decide) (by decide +kernel) (by decide +kernel)
    (Parser.new (fun _ => []) false)
  have h : (match withEntries (entriesIn taEntries u!"ตากลม") u!"ตากลม" with
      | some ss => decide (1 < ss.length) | none => false) = true := by decide +kernel
  cases hw : withEntries (entriesIn taEntries u!"ตากลม") u!"ตากลม" with
  | none => rw [hw] at h; cases h
  | some ss =>
    rw [hw] at h
    obtain ⟨d, k1, k2⟩ := entries_listing (by decide +kernel) h4 hw
    refine ⟨t, b, p, d, ss, h1, h2, ?_, k2, of_decide_eq_true h⟩
    rw [C37_word p _ u!"ตากลม" (by decide +kernel), h3]
    exact k1

/-- The words of the shipped dictionary that begin with another word of it, or have two pronunciations. -/
private def special : List U16Str := [u!"อย่าง", u!"บัณฑิตย์", u!"ไทรอยด์", u!"อินทรีย์", u!"ภูมิ", u!"เพชร"]

private theorem special_listing : ∀ e ∈ exceptEntries, e.word ∈ special →
    (match withEntries (entriesIn exceptEntries e.word) e.word with
      | some ss => decide (SylString.makeSylStrings e.data = .ok ss) | none => false) = true := by decide +kernel

private theorem others_single : ∀ e ∈ exceptEntries, e.word ∈ special ∨ e.word = u!"สิริกิติ์" ∨
    (dictAt thaiCType e.word (lastData exceptEntries) 0 e.word.length = [(e.word.length, e.data)] ∧
      (match SylString.makeSylStrings e.data with | .ok [_] => true | _ => false) = true) := by decide +kernel

/-- With the shipped dictionary, every word of it except สิริกิติ์ has exactly the pronunciations of its entry, in the same order. -/
theorem C97_shipped (hd : Holds p.exceptDict (lastData exceptEntries)) (hb : p.thBrk = none) (e : DEntry) (he : e ∈ exceptEntries)
    (hne : e.word ≠ u!"สิริกิติ์") : ∃ d ss, p.parseWord thaiCType (e.word.flatMap utf8EncodeOne) = .ok d ∧
      PronunDAG.sylStrings d 0 = .ok ss ∧ DataIs e.data ss := by
  have hw : fromBytes (e.word.flatMap utf8EncodeOne) = .ok e.word := by
    have h : ∀ e ∈ exceptEntries, fromBytes (e.word.flatMap utf8EncodeOne) = .ok e.word := by decide +kernel
    exact h e he
  have hbr : findBreaks e.word p.thBrk = [] := by rw [hb]; rfl
  rcases others_single e he with h | h | ⟨h1, h2⟩
  · have h := special_listing e he h
    cases hl : withEntries (entriesIn exceptEntries e.word) e.word with
    | none => rw [hl] at h; cases h
    | some ss =>
      rw [hl] at h
      obtain ⟨d, k1, k2⟩ := entries_listing C48_lines hd hl
      exact ⟨d, ss, by rw [C37_word p _ _ hw, hbr]; exact k1, k2, (makeSylStrings_iff _ _).mp (of_decide_eq_true h)⟩
  · exact absurd h hne
  · have hs : ∀ m data, WordAt thaiCType e.word (lastData exceptEntries) 0 e.word.length m data →
        m = e.word.length ∧ data = e.data := by
      intro m data h
      have := (wordAt_iff (Nat.le_refl _)).mp h
      rw [h1, List.mem_singleton] at this
      cases this
      exact ⟨rfl, rfl⟩
    obtain ⟨strs, k1, d, k2, -⟩ := C42_shipped hd hb e he hs
    have hm := (makeSylStrings_iff _ _).mpr k1
    rw [hm] at h2
    split at h2
    · rename_i str hstr
      cases hstr
      have hall : ∀ e ∈ exceptEntries, e.word ≠ [] ∧ ∀ c ∈ e.word, isThaiTokenChar thaiCType c = true := by decide +kernel
      have hl : lastData exceptEntries e.word = some e.data := by
        have : (e.word.length, e.data) ∈ dictAt thaiCType e.word (lastData exceptEntries) 0 e.word.length := by rw [h1]; simp
        have := ((wordAt_iff (Nat.le_refl _)).mpr this).2.2.1
        unfold piece at this
        simpa using this
      exact ⟨d, [str], k2, C42_single thaiCType_ok hw hd (C48_good _ fun _ h => h) k2
        (by rw [hbr]; exact tokenTo_iff.mpr (isStop_whole (hall e he).1 (hall e he).2 fun b hb => by cases hb)) hl
        (fun m data h => (hs m data h).1) k1, k1⟩
    · cases h2

/-- สิริกิติ์ has a second pronunciation that is not in its entry, since the dictionary has สิริ too. -/
theorem C97_shipped_false (hd : Holds p.exceptDict (lastData exceptEntries)) (hb : p.thBrk = none) :
    lastData exceptEntries u!"สิริกิติ์" = some b!"s_i_1@2,r_i_1@4,k_it1@9" ∧
    ∃ d ss, p.parseWord thaiCType b!"สิริกิติ์" = .ok d ∧ PronunDAG.sylStrings d 0 = .ok ss ∧
      ss.map (delimStr rawSyl ch!",") = [.ok b!"s_i_1@2,r_i_1@4,k_it1@9", .ok b!"s_i_1@2,r_i_1@4,k_i_1@9"] := by
  refine ⟨by decide +kernel, ?_⟩
  have h : (match withEntries (entriesIn exceptEntries u!"สิริกิติ์") u!"สิริกิติ์" with
      | some ss => decide (ss.map (delimStr rawSyl ch!",") = [.ok b!"s_i_1@2,r_i_1@4,k_it1@9", .ok b!"s_i_1@2,r_i_1@4,k_i_1@9"])
      | none => false) = true := by decide +kernel
  cases hw : withEntries (entriesIn exceptEntries u!"สิริกิติ์") u!"สิริกิติ์" with
  | none => rw [hw] at h; cases h
  | some ss =>
    rw [hw] at h
    obtain ⟨d, h1, h2⟩ := entries_listing C48_lines hd hw
    refine ⟨d, ss, ?_, h2, of_decide_eq_true h⟩
    rw [C37_word p _ u!"สิริกิติ์" (by decide +kernel), hb]
    exact h1

private theorem shipped_size : (exceptEntries.map fun e => e.data.length + 1).sum < 0x80000000 := by decide +kernel

/-- The shipped dictionary is such a dictionary, and ภูมิ, with two pronunciations, meets the hypotheses of `C97_partial`. -/
example : (∃ t b p, Gen.genDict 0 (exceptEntries.flatMap entryLine) = .ok (.success t b) ∧
      (Parser.new (fun _ => []) false).loadExceptDict (Gen.GenResult.file (.success t b)) = .ok (p, true) ∧
      Holds p.exceptDict (lastData exceptEntries)) ∧ GoodLook (lastData exceptEntries) ∧
    lastData exceptEntries u!"ภูมิ" = some b!"P_Um0@4;P_U_0@2,m_i_3@4" ∧ (∀ c ∈ u!"ภูมิ", isThaiTokenChar thaiCType c = true) ∧
    ∀ m data, WordAt thaiCType u!"ภูมิ" (lastData exceptEntries) 0 4 m data → m = 4 := by
  refine ⟨?_, C48_good _ fun _ h => h, by decide +kernel, by decide +kernel, ?_⟩
  · obtain ⟨t, b, p, h1, h2, -, h4⟩ := holds_generated 0 exceptEntries (by decide +kernel) C48_lines shipped_size (Parser.new (fun _ => []) false)
    exact ⟨t, b, p, h1, h2, h4⟩
  · rintro m data ⟨h1, h2, h3, -⟩
    have hm : m < 5 := Nat.lt_succ_of_le h2
    have key : ∀ m < 5, (lastData exceptEntries (piece u!"ภูมิ" 0 m)).isSome = true → m = 4 := by decide +kernel
    exact key m hm (by rw [h3]; rfl)

end Thpronun
