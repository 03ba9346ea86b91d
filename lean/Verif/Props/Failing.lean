import Verif.Lemmas.BadDict
import Verif.Lemmas.Desc
import Verif.Props.Unusable

/-! # Dictionaries with unreadable or missing data: C33, C37, C60 -/

namespace Thpronun
open Res Spec Cli

variable {ct : CType}

/-- With a readable dictionary and breaks inside the text the parser returns or throws `out_of_range`,
the latter exactly when some partial reading reaches a leading vowel other than "เ" at the very end. -/
theorem C37_exact (hct : ct.Ok) (w : U16Str) (dict : Option Dict) (brk : List Int) (look : List Nat → Option Str)
    (hd : Holds dict look) (hr : Readable look) (hb : ∀ b ∈ brk, b ≤ w.length) :
    ((∃ d, parseU16 ct w dict brk = .ok d) ∨ parseU16 ct w dict brk = .throw .outOfRange) ∧
    (parseU16 ct w dict brk = .throw .outOfRange ↔ ∃ c, DeadEnd ct w look brk c) := by
  simp only [deadEnd_iff hct]
  exact parse_exact hct w dict brk look hd hr hb

/-- `DeadEnd` is not rare: any reading up to the last character. -/
example : ∃ c, DeadEnd thaiCType u!"กาแ" (fun _ => none) [] c := by
  have h := C37_exact thaiCType_ok u!"กาแ" none [] (fun _ => none) holds_none readable_none (by simp)
  refine h.2.mp ?_
  have h : parseU16Fuel thaiCType u!"กาแ" 30 none [] = .throw .outOfRange := by decide +kernel
  rw [parseU16_fuel (n := 30) (by rw [h]; simp), h]

/-- Exactly when a text is parsed, for every dictionary: no partial reading comes to a leading vowel other than SARA E at
the very end of the text, and none meets a dictionary word whose data do not follow the format. -/
theorem C37_ok (hct : ct.Ok) (w : U16Str) (dict : Option Dict) (brk : List Int) (look : List Nat → Option Str)
    (hd : Holds dict look) (hb : ∀ b ∈ brk, b ≤ w.length) :
    (∃ d, parseU16 ct w dict brk = .ok d) ↔ (∀ c, ¬ DeadEnd ct w look brk c) ∧
      ∀ c t q data, RuleDeriv ct w look brk c → TokenTo ct w brk c.pos t → WordAt ct w look c.pos t q data →
        ∃ strs, DataIs data strs := by
  simp only [deadEnd_iff hct, ruleDeriv_iff hct, tokenTo_iff]
  constructor
  · rintro ⟨d, h⟩
    refine ⟨fun c hc => not_ok_of_stuck hct hd hc h, fun c t q data hc ht hm => ?_⟩
    by_contra hbad
    exact not_ok_of_blocks hct hd hc (blocks_of_unread ht ((wordAt_iff ht.le).mp hm) fun strs hs => hbad ⟨strs, (makeSylStrings_iff _ _).mp hs⟩) h
  · rintro ⟨h1, h2⟩
    rcases parse_ok_or_stuck hct hd (fun c t hc ht m hm => by
      obtain ⟨strs, hs⟩ := h2 c t m.1 m.2 hc ht ((wordAt_iff ht.le).mpr hm)
      exact ⟨strs, (makeSylStrings_iff _ _).mpr hs⟩) hb with h | ⟨-, c, hc⟩
    · exact h
    · exact absurd hc (h1 c)

/-- Exactly when a trie without data does harm: if no partial reading of the text meets one of its words, the result is
that without dictionary, otherwise the behaviour is undefined. -/
theorem C33_exact (hct : ct.Ok) (w : U16Str) (t : Trie) (ht : ∀ e ∈ t, e.2 ≠ -1) (brk : List Int)
    (hb : ∀ b ∈ brk, b ≤ w.length) :
    ((∃ c, RuleDeriv ct w (fun _ => none) brk c ∧ MeetsWord ct w brk (t.map fun e => e.1) c.pos) ∧
      parseU16 ct w (some ⟨some t, none⟩) brk = .ub) ∨
    ((¬ ∃ c, RuleDeriv ct w (fun _ => none) brk c ∧ MeetsWord ct w brk (t.map fun e => e.1) c.pos) ∧
      parseU16 ct w (some ⟨some t, none⟩) brk = parseU16 ct w none brk) := by
  by_cases h : ∃ c, RuleDeriv ct w (fun _ => none) brk c ∧ MeetsWord ct w brk (t.map fun e => e.1) c.pos
  · obtain ⟨c, hc, hm⟩ := h
    exact .inl ⟨⟨c, hc, hm⟩, parse_nodata_ub hct t ht hb ((ruleDeriv_iff hct).mp hc) hm⟩
  · exact .inr ⟨h, parse_nodata hct t ht fun c hc hm => h ⟨c, (ruleDeriv_iff hct).mpr hc, hm⟩⟩

theorem wordsS_ub {parse parse' : Str → Res PronunDAG} (outs : List OutKind) (ws : List Str)
    (h : ∀ x ∈ ws, parse x = parse' x ∨ parse x = .ub) (hok : (wordsS parse' outs ws).res = .ok ())
    (hx : ∃ x ∈ ws, parse x = .ub) : (wordsS parse outs ws).res = .ub := by
  induction ws with
  | nil => obtain ⟨x, hx, -⟩ := hx; cases hx
  | cons a ws ih =>
    simp only [wordsS, act_bind_res] at hok ⊢
    obtain ⟨u, h1, h2⟩ := bind_eq_ok.mp hok
    have hub : parse a = .ub → (doParseS parse outs a).res = .ub := by
      intro ha
      simp only [doParseS, act_bind_res, ha]
      rfl
    by_cases ha : parse a = .ub
    · rw [hub ha]; rfl
    · rcases h a (by simp) with he | he
      · have : doParseS parse outs a = doParseS parse' outs a := by simp only [doParseS, he]
        rw [this, h1, ok_bind]
        refine ih (fun x hx => h x (by simp [hx])) h2 ?_
        obtain ⟨x, hx, hx'⟩ := hx
        rcases List.mem_cons.mp hx with rfl | hx
        · exact absurd hx' ha
        · exact ⟨x, hx, hx'⟩
      · exact absurd he ha

/-- A file with a trie whose data are missing, empty or cut off: if no partial reading of any word meets a word of the
trie, the run is in every respect that without dictionary file. If one does, and the run without dictionary file would end
normally, the behaviour is undefined. -/
theorem C60_exact (prog version dflt : Str) (brk : U16Str → List Int) (files : Option Str → Option DictFile)
    (args : List Str) (stdin : Str) (hct : ct.Ok) (r : Run) (hr : plan args (getLines stdin) = .ok (.inr r)) (f : DictFile)
    (hf : files r.dictPath = some f) (t : Trie) (htr : f.trie = some t) (ht : ∀ e ∈ t, e.2 ≠ -1)
    (hs : Dict.readDataBank f.rest = .ok none)
    (hbr : ∀ w, ∀ b ∈ findBreaks w (Parser.new brk r.isBreakWords).thBrk, b ≤ w.length) :
    ((∀ word ∈ r.words, ∀ w, fromBytes word = .ok w → ∀ c,
        RuleDeriv ct w (fun _ => none) (findBreaks w (Parser.new brk r.isBreakWords).thBrk) c →
        ¬ MeetsWord ct w (findBreaks w (Parser.new brk r.isBreakWords).thBrk) (t.map fun e => e.1) c.pos) →
      mainS prog version dflt ct brk files args stdin = mainS prog version dflt ct brk (fun _ => none) args stdin) ∧
    ((∃ word ∈ r.words, ∃ w, fromBytes word = .ok w ∧ ∃ c,
        RuleDeriv ct w (fun _ => none) (findBreaks w (Parser.new brk r.isBreakWords).thBrk) c ∧
        MeetsWord ct w (findBreaks w (Parser.new brk r.isBreakWords).thBrk) (t.map fun e => e.1) c.pos) →
      (mainS prog version dflt ct brk (fun _ => none) args stdin).res = .ok 0 →
      (mainS prog version dflt ct brk files args stdin).res = .ub) := by
  have hn : (Parser.new brk r.isBreakWords).loadExceptDict none =
      .ok (⟨some Dict.empty, (Parser.new brk r.isBreakWords).thBrk⟩, false) := rfl
  have hl : (Parser.new brk r.isBreakWords).loadExceptDict (files r.dictPath) =
      .ok (⟨some ⟨some t, none⟩, (Parser.new brk r.isBreakWords).thBrk⟩, false) := by
    rw [hf, Parser.loadExceptDict, Dict.open_]
    simp only [hs, ok_bind, pure_eq, htr]
    rfl
  have hnone : ∀ w b, parseU16 ct w (some Dict.empty) b = parseU16 ct w none b := fun w b => parse_noTrie hct _ rfl
  have hword : ∀ word, Parser.parseWord ct ⟨some Dict.empty, (Parser.new brk r.isBreakWords).thBrk⟩ word =
      (fromBytes word >>= fun w => parseU16 ct w none (findBreaks w (Parser.new brk r.isBreakWords).thBrk)) := by
    intro word
    unfold Parser.parseWord
    simp only [hnone]
  rw [mainS_run _ _ _ _ _ _ _ _ hr hl, mainS_run (files := fun _ => none) _ _ _ _ _ _ _ hr hn]
  have hsame : ∀ word, (∀ w, fromBytes word = .ok w → ∀ c,
      RuleDeriv ct w (fun _ => none) (findBreaks w (Parser.new brk r.isBreakWords).thBrk) c →
      ¬ MeetsWord ct w (findBreaks w (Parser.new brk r.isBreakWords).thBrk) (t.map fun e => e.1) c.pos) →
      Parser.parseWord ct ⟨some ⟨some t, none⟩, (Parser.new brk r.isBreakWords).thBrk⟩ word =
        Parser.parseWord ct ⟨some Dict.empty, (Parser.new brk r.isBreakWords).thBrk⟩ word := by
    intro word h
    rw [hword]
    unfold Parser.parseWord
    cases hw : fromBytes word with
    | ok w => exact parse_nodata hct t ht fun c hc => h w hw c ((ruleDeriv_iff hct).mpr hc)
    | throw e => rfl
    | ub => rfl
    | diverge => rfl
  have hub : ∀ word w, fromBytes word = .ok w → ∀ c,
      RuleDeriv ct w (fun _ => none) (findBreaks w (Parser.new brk r.isBreakWords).thBrk) c →
      MeetsWord ct w (findBreaks w (Parser.new brk r.isBreakWords).thBrk) (t.map fun e => e.1) c.pos →
      Parser.parseWord ct ⟨some ⟨some t, none⟩, (Parser.new brk r.isBreakWords).thBrk⟩ word = .ub := by
    intro word w hw c hc hm
    rw [C37_word _ _ _ hw]
    exact parse_nodata_ub hct t ht (hbr w) ((ruleDeriv_iff hct).mp hc) hm
  constructor
  · intro h
    rw [wordsS_congr r.outputs r.words fun word hword => hsame word (h word hword)]
  · rintro ⟨word, hword', w, hw, c, hc, hm⟩ h0
    obtain ⟨u, h1, -⟩ := bind_eq_ok.mp h0
    have := wordsS_ub (parse := Parser.parseWord ct ⟨some ⟨some t, none⟩, (Parser.new brk r.isBreakWords).thBrk⟩)
      r.outputs r.words (fun x hx => ?_) h1 ⟨word, hword', hub word w hw c hc hm⟩
    · simp only [this]
      rfl
    · by_cases hx' : ∀ w, fromBytes x = .ok w → ∀ c,
        RuleDeriv ct w (fun _ => none) (findBreaks w (Parser.new brk r.isBreakWords).thBrk) c →
        ¬ MeetsWord ct w (findBreaks w (Parser.new brk r.isBreakWords).thBrk) (t.map fun e => e.1) c.pos
      · exact .inl (hsame x hx')
      · push_neg at hx'
        obtain ⟨w', hw', c', hc', hm'⟩ := hx'
        exact .inr (hub x w' hw' c' hc' hm')

/-- Both cases of `C33_exact`: the word of the trie stands at the beginning of the first text and not in the second. -/
example : (∃ c, RuleDeriv thaiCType u!"กา" (fun _ => none) [] c ∧ MeetsWord thaiCType u!"กา" [] [u!"กา"] c.pos) ∧
    ¬ ∃ p, MeetsWord thaiCType u!"ขา" [] [u!"กา"] p := by
  constructor
  · refine ⟨⟨0, false, []⟩, .refl, 2, 2, ⟨by decide, by decide, ?_, by decide, .inl rfl⟩, by decide, by decide, .inl rfl,
      by decide⟩
    intro i _ hi
    match i, hi with
    | 0, _ => exact ⟨_, rfl, by decide +kernel⟩
    | 1, _ => exact ⟨_, rfl, by decide +kernel⟩
  · rintro ⟨p, t, q, h1, h2, h3, -, h4⟩
    have hp : t ≤ 2 := h1.2.1
    have : p = 0 ∧ q = 1 ∨ p = 0 ∧ q = 2 ∨ p = 1 ∧ q = 2 := by omega
    rcases this with ⟨rfl, rfl⟩ | ⟨rfl, rfl⟩ | ⟨rfl, rfl⟩ <;> revert h4 <;> decide +kernel

/-- A file of `C60_exact`: a trie and nothing behind it. -/
example : Dict.readDataBank [] = .ok none := rfl

end Thpronun
