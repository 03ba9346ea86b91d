import Verif.Props.Program
import Verif.Props.Streams
import Verif.Props.Json
import Verif.Props.Listed
import Verif.Props.GroupList
import Verif.Props.Shipped
import Verif.Props.Failing

/-! # What a run of the program prints, from the options to the last byte: C90 -/

namespace Thpronun
open Res Spec DAG Cli

namespace Spec

/-- `word` is the UTF-8 form and `w` the UTF-16 form of the same characters. -/
def UtfForms (word : Str) (w : U16Str) : Prop :=
  ∃ cs : List Nat, (∀ c ∈ cs, c < 0xd800 ∨ (0xe000 ≤ c ∧ c < 0x110000)) ∧ word = cs.flatMap utf8EncodeOne ∧
    w = cs.flatMap utf16EncodeOne

/-- `ss` are the pronunciations of `w`: the ways along syllables of readings from the beginning of the text to its end,
each once. -/
def Pronunciations (ct : CType) (look : List Nat → Option Str) (w : U16Str) (brk : List Int) (ss : List (List Syl)) : Prop :=
  (∀ s ∈ ss, s ≠ [] ∧ Route (ReadEdge ct w look brk) 0 w.length s) ∧
  (∀ s, s ≠ [] → Route (ReadEdge ct w look brk) 0 w.length s → ∃ s' ∈ ss, SamePron s' s) ∧
  ss.Pairwise fun a b => ¬ SamePron a b

/-- The text `t` shows the pronunciations `ss` in the form asked for: one line for each, with the delimiter between the
syllables or with hyphens by the rule of the Royal Institute; a JSON array of arrays of the texts of the syllables; or a
JSON array of arrays of alternatives, the choices from which are just these pronunciations. (The JSON forms only if the
word needs no escape, see C21.) -/
def ShowsAll (word : Str) (ss : List (List Syl)) (k : OutKind) (t : Str) : Prop :=
  match k with
  | .delim c s => t = ss.flatMap fun x => joinWith s (x.map (textOf (sylOutputOf c))) ++ b!"\n"
  | .roman => t = ss.flatMap fun x => hyphenated (textOf romanSyl) x ++ b!"\n"
  | .json c => JsonSafe word → readJson t = some (jsonOf (textOf (sylOutputOf c)) ss)
  | .gjson c => ∃ latt, (∀ s, (∃ x ∈ expandLatt latt, SylString.eq x s = true) ↔ ∃ x ∈ ss, SylString.eq x s = true) ∧
      (JsonSafe word → readJson t = some (jsonOfLatt (textOf (sylOutputOf c)) latt))

/-- What is printed for a word: the word and a colon, then its pronunciations in every form asked for. -/
def Printed (ct : CType) (look : List Nat → Option Str) (brk : U16Str → List Int) (outs : List OutKind) (word block : Str) :
    Prop :=
  ∃ w ss texts, UtfForms word w ∧ Pronunciations ct look w (brk w) ss ∧ List.Forall₂ (ShowsAll word ss) outs texts ∧
    block = word ++ b!":\n" ++ texts.flatMap fun t => t ++ b!"\n"

/-- A word that can be printed: valid UTF-8, no partial reading comes to a leading vowel at its very end, and for plain JSON
there is a pronunciation. -/
def Printable (ct : CType) (look : List Nat → Option Str) (brk : U16Str → List Int) (json : Prop) (word : Str) : Prop :=
  ∃ w, UtfForms word w ∧ (∀ c, ¬ DeadEnd ct w look (brk w) c) ∧
    (json → w ≠ [] ∧ ∃ es, RuleReading ct w look (brk w) es)

end Spec

theorem utfForms_iff {word : Str} {w : U16Str} : UtfForms word w ↔ fromBytes word = .ok w := by
  rw [fromBytes_ok]
  unfold UtfForms enc8 enc16
  simp only [isScalar_iff]

variable {ct : CType} {look : List Nat → Option Str} {p : Parser} {word : Str} {w : U16Str} {d : PronunDAG}

private theorem so_mem (c : Byte) : sylOutputOf c ∈ [rawSyl, romanSyl, phoneticSyl, soundexSyl, thaiSyl] := by
  unfold sylOutputOf
  repeat' split
  all_goals simp

/-- The listing of the result of the parser. -/
theorem pronunciations_of (hct : ct.Ok) (hw : fromBytes word = .ok w) (hd : Holds p.exceptDict look) (hg : GoodLook look)
    (h : p.parseWord ct word = .ok d) {ss : List (List Syl)} (hs : PronunDAG.sylStrings d 0 = .ok ss) :
    Pronunciations ct look w (findBreaks w p.thBrk) ss := by
  by_cases hne : w = []
  · subst hne
    have h' := h
    rw [C37_word p word [] hw, C40_empty] at h'
    cases h'
    have h0 : ss = [] := by cases hs; rfl
    subst h0
    refine ⟨by simp, fun s hs' hr => ?_, by simp⟩
    exfalso
    cases s with
    | nil => exact hs' rfl
    | cons x xs =>
      obtain ⟨⟨es, hes, e, he, -⟩, -⟩ := hr
      obtain ⟨h1, h2, h3⟩ := (reading_inv hct hg ((ruleReading_iff hct).mp hes)).chain.mem he
      have : place (([] : U16Str).length : Int) = place 0 := rfl
      rw [this] at h3
      omega
  · obtain ⟨ss', h1, h2, h3, h4⟩ := C54_exact hct hw hd hg hne h
    rw [hs] at h1
    cases h1
    refine ⟨fun s hs' => ⟨?_, h2 s hs'⟩, fun s _ hr => h3 s hr, h4⟩
    rintro rfl
    have h0 : (0 : Int) = w.length := h2 _ hs'
    exact hne (List.length_eq_zero_iff.mp (by omega))

/-- Every output is shown as asked for. -/
theorem shows_of (hct : ct.Ok) (hw : fromBytes word = .ok w) (hd : Holds p.exceptDict look) (hg : GoodLook look)
    (h : p.parseWord ct word = .ok d) {ss : List (List Syl)} (hs : PronunDAG.sylStrings d 0 = .ok ss) {k : OutKind} {t : Str}
    (hk : k.run d = .ok t) : ShowsAll word ss k t := by
  cases k with
  | delim c s =>
    obtain ⟨ss', h1, h2⟩ := C39_delimited hct hw hd hg h _ (so_mem c) s
    rw [hs] at h1
    cases h1
    have hk : delimDag (sylOutputOf c) s d = .ok t := hk
    rw [hk] at h2
    exact Res.ok.inj h2
  | roman =>
    obtain ⟨ss', h1, h2⟩ := C39_roman hct hw hd hg h
    rw [hs] at h1
    cases h1
    have hk : romanDag false d = .ok t := hk
    rw [hk] at h2
    exact Res.ok.inj h2
  | json c =>
    intro hj
    have hk : jsonDag (sylOutputOf c) d = .ok t := hk
    have hne : d.mFrom ≠ [] := by
      intro h0
      rw [jsonDag, (C38_nonempty hct hw hd hg h).mpr h0] at hk
      cases hk
    obtain ⟨ss', t', h1, h2, h3⟩ := C21_word hct hw hd hg h hne _ (so_mem c)
    rw [hs] at h1
    cases h1
    rw [hk] at h2
    cases h2
    exact h3.mpr hj
  | gjson c =>
    have hk : gjsonDag (sylOutputOf c) d = .ok t := hk
    obtain ⟨ss', f, latt, h1, -, h3, h4, -, h6⟩ := C79_listing hct hw hd hg h
    rw [hs] at h1
    cases h1
    refine ⟨latt, h6, fun hj => ?_⟩
    obtain ⟨f', latt', t', k1, k2, k3, k4⟩ := (C39_json hct hw hd hg h ((fromBytes_safe hw).mpr hj) _ (so_mem c)).2
    rw [h3] at k1
    cases k1
    rw [h4] at k2
    cases k2
    rw [hk] at k3
    cases k3
    exact k4

theorem printed_of (hct : ct.Ok) (hd : Holds p.exceptDict look) (hg : GoodLook look) {outs : List OutKind} {block : Str}
    (h : IsBlock (p.parseWord ct) outs word block) : Printed ct look (fun w => findBreaks w p.thBrk) outs word block := by
  obtain ⟨d, ts, hd', hts, rfl⟩ := h
  obtain ⟨w, hw, -⟩ := Res.bind_eq_ok.mp hd'
  obtain ⟨hb, ha⟩ := C38_acyclic hct hw hd hg hd'
  obtain ⟨ps, h1, -, -⟩ := C15_listing d hb ha
  exact ⟨w, _, ts, utfForms_iff.mpr hw, pronunciations_of hct hw hd hg hd' h1,
    hts.imp fun k t hk => shows_of hct hw hd hg hd' h1 hk, rfl⟩

/-- The words before one whose parse or first output does not end normally are printed, then its heading. -/
theorem wordsS_stop {parse : Str → Res PronunDAG} {outs : List OutKind} {word : Str} {rest : List Str} :
    ∀ {done blocks : List Str}, List.Forall₂ (IsBlock parse outs) done blocks →
      (∀ e, parse word = .throw e →
        (wordsS parse outs (done ++ word :: rest)).res = .throw e ∧
        (wordsS parse outs (done ++ word :: rest)).out = blocks.flatten ++ (word ++ b!":\n")) ∧
      ((doParseS parse outs word).res = .ub → (wordsS parse outs (done ++ word :: rest)).res = .ub) := by
  intro done blocks h
  induction h with
  | nil =>
    refine ⟨fun e he => ?_, fun hu => ?_⟩
    · have : doParseS parse outs word = ⟨word ++ b!":\n", [], .throw e⟩ := by
        unfold doParseS
        rw [act_put, he]
        show (⟨_, _, _⟩ : Act Unit) = _
        simp [Act.lift, Bind.bind, Act.bind]
      simp only [List.nil_append, wordsS]
      rw [act_bind_throw (by rw [this]), this]
      exact ⟨rfl, by simp⟩
    · simp only [List.nil_append, wordsS]
      show (Act.bind _ _).res = _
      unfold Act.bind
      rw [hu]
  | @cons x b xs bs hx hxs ih =>
    obtain ⟨j1, j2, j3, -⟩ := doParseS_facts parse outs x
    have hk : doParse parse outs x = .ok b := by
      obtain ⟨d, ts, hd, hts, rfl⟩ := hx
      have := (C52_output parse outs [x] (x ++ b!":\n" ++ ts.flatMap fun t => t ++ b!"\n")).mpr
        ⟨[x ++ b!":\n" ++ ts.flatMap fun t => t ++ b!"\n"], .cons ⟨d, ts, hd, hts, rfl⟩ .nil, by simp⟩
      simp only [wordsLoop, bind_eq_ok, pure_eq] at this
      obtain ⟨o, ho, r, hr, h⟩ := this
      cases hr
      simp only [List.append_nil] at h
      rw [ho]
      exact h
    have hr : (doParseS parse outs x).res = .ok () := by rw [j2, hk]; rfl
    simp only [List.cons_append, wordsS]
    rw [act_bind_ok hr]
    refine ⟨fun e he => ⟨(ih.1 e he).1, ?_⟩, fun hu => ih.2 hu⟩
    simp only [(ih.1 e he).2, j3 b hk, List.flatten_cons, List.append_assoc]

section
variable (prog version dflt : Str) (ct : CType) (brk : U16Str → List Int) (files : Option Str → Option DictFile)
  (args : List Str) (stdin : Str)

/-- The breaks used: those of the word breaker, or none with the option `-n`. -/
def breaksOf (brk : U16Str → List Int) (r : Cli.Run) (w : U16Str) : List Int := if r.isBreakWords then brk w else []

theorem breaks_loaded {brk : U16Str → List Int} {r : Cli.Run} {f : Option DictFile} {p : Parser} {b : Bool}
    (hl : (Parser.new brk r.isBreakWords).loadExceptDict f = .ok (p, b)) :
    (fun w => findBreaks w p.thBrk) = breaksOf brk r := by
  unfold Parser.loadExceptDict at hl
  obtain ⟨⟨d, r'⟩, -, h⟩ := Res.bind_eq_ok.mp hl
  cases h
  funext w
  unfold breaksOf Parser.new findBreaks
  cases r.isBreakWords <;> rfl

/-- C90: every run that comes to its words, in terms of the rules of reading only. -/
theorem C90_run (hct : ct.Ok) (hgood : ∀ a ∈ args, GoodArg a) (r : Run) (hr : r = meaning args (getLines stdin)) (p : Parser)
    (b : Bool) (hl : (Parser.new brk r.isBreakWords).loadExceptDict (files r.dictPath) = .ok (p, b))
    (look : List Nat → Option Str) (hd : Holds p.exceptDict look) (hg : GoodLook look)
    (hbr : ∀ w, ∀ b ∈ brk w, b ≤ w.length) :
    -- all words can be printed
    ((∀ word ∈ r.words, Printable ct look (breaksOf brk r) (given args ch!"j" = true ∧ given args ch!"g" = false) word) →
      (mainS prog version dflt ct brk files args stdin).res = .ok 0 ∧
      ∃ blocks, List.Forall₂ (Printed ct look (breaksOf brk r) r.outputs) r.words blocks ∧
        (mainS prog version dflt ct brk files args stdin).out = blocks.flatten) ∧
    -- the first that cannot
    (∀ done word rest, r.words = done ++ word :: rest →
      (∀ x ∈ done, Printable ct look (breaksOf brk r) (given args ch!"j" = true ∧ given args ch!"g" = false) x) →
      ¬ Printable ct look (breaksOf brk r) (given args ch!"j" = true ∧ given args ch!"g" = false) word →
      ∃ blocks, List.Forall₂ (Printed ct look (breaksOf brk r) r.outputs) done blocks ∧
        ((¬ ∃ w, UtfForms word w) →
          (mainS prog version dflt ct brk files args stdin).res = .throw .rangeError ∧
          (mainS prog version dflt ct brk files args stdin).out = blocks.flatten ++ (word ++ b!":\n")) ∧
        (∀ w, UtfForms word w → (∃ c, DeadEnd ct w look (breaksOf brk r w) c) →
          (mainS prog version dflt ct brk files args stdin).res = .throw .outOfRange ∧
          (mainS prog version dflt ct brk files args stdin).out = blocks.flatten ++ (word ++ b!":\n")) ∧
        (∀ w, UtfForms word w → (¬ ∃ c, DeadEnd ct w look (breaksOf brk r w) c) →
          (mainS prog version dflt ct brk files args stdin).res = .ub)) ∧
    -- the standard error
    (mainS prog version dflt ct brk files args stdin).err = if b then [] else noDictText dflt r.dictPath := by
  have hplan := (C50_exact args (getLines stdin) r).mpr ⟨hgood, hr⟩
  have hB := breaks_loaded hl
  have hBw : ∀ w, findBreaks w p.thBrk = breaksOf brk r w := fun w => congrFun hB w
  have hbr' : ∀ w, ∀ b ∈ findBreaks w p.thBrk, b ≤ w.length := by
    intro w b hb
    rw [hBw] at hb
    unfold breaksOf at hb
    split at hb
    · exact hbr w b hb
    · cases hb
  have hone : ∀ word, (∃ block, IsBlock (p.parseWord ct) r.outputs word block) ↔
      Printable ct look (breaksOf brk r) (given args ch!"j" = true ∧ given args ch!"g" = false) word := by
    intro word
    rw [block_iff hct hplan hd hg fun w _ => hbr' w]
    unfold Printable
    simp only [utfForms_iff, hBw, and_imp]
  have hall : ∀ ws : List Str, (∀ x ∈ ws, ∃ block, IsBlock (p.parseWord ct) r.outputs x block) →
      ∃ bs, List.Forall₂ (IsBlock (p.parseWord ct) r.outputs) ws bs := by
    intro ws
    induction ws with
    | nil => exact fun _ => ⟨[], .nil⟩
    | cons k ks ih =>
      intro h
      obtain ⟨t, ht⟩ := h k (by simp)
      obtain ⟨ts, hts⟩ := ih fun x hx => h x (by simp [hx])
      exact ⟨t :: ts, .cons ht hts⟩
  have hpr : ∀ {ws bs}, List.Forall₂ (IsBlock (p.parseWord ct) r.outputs) ws bs →
      List.Forall₂ (Printed ct look (breaksOf brk r) r.outputs) ws bs := fun h =>
    h.imp fun x b hx => hB ▸ printed_of hct hd hg hx
  refine ⟨fun hw => ?_, fun done word rest hws hdone hbad => ?_, C58_stderr prog version dflt ct brk files args stdin hplan hl⟩
  · have hres : (mainS prog version dflt ct brk files args stdin).res = .ok 0 := by
      rw [C58_status]
      obtain ⟨t, ht⟩ := (main_blocks (ct := ct) hplan hl).mpr fun x hx => (hone x).mpr (hw x hx)
      rw [ht]
      rfl
    obtain ⟨bs, h1, h2⟩ := C58_normal prog version dflt ct brk files args stdin hplan hl hres
    exact ⟨hres, bs, hpr h1, h2⟩
  · obtain ⟨bs, hbs⟩ := hall done fun x hx => (hone x).mpr (hdone x hx)
    obtain ⟨k1, k2⟩ := wordsS_stop (rest := rest) (word := word) hbs
    rw [mainS_run _ _ _ _ _ _ _ _ hplan hl, hws]
    have hthrow : ∀ e, p.parseWord ct word = .throw e →
        ((wordsS (p.parseWord ct) r.outputs (done ++ word :: rest)).res >>= fun _ => (Res.ok 0 : Res Nat)) = .throw e ∧
        (wordsS (p.parseWord ct) r.outputs (done ++ word :: rest)).out = bs.flatten ++ (word ++ b!":\n") := by
      intro e he
      obtain ⟨a1, a2⟩ := k1 e he
      exact ⟨by rw [a1]; rfl, a2⟩
    refine ⟨bs, hpr hbs, fun hn => hthrow _ ?_, fun w hw hdead => hthrow _ ?_, fun w hw hdead => ?_⟩
    · refine C37_encoding p word ?_
      cases hu : utf8Decode word with
      | none => rfl
      | some cs =>
        exact absurd ⟨cs.flatMap utf16EncodeOne, utfForms_iff.mpr (by unfold fromBytes; rw [hu])⟩ hn
    · have hw := utfForms_iff.mp hw
      rw [C37_word p word w hw, hBw]
      exact (C37_exact hct w p.exceptDict (breaksOf brk r w) look hd hg.readable (hBw w ▸ hbr' w)).2.mpr hdead
    · have hw' := utfForms_iff.mp hw
      have hub : (doParseS (p.parseWord ct) r.outputs word).res = .ub := by
        obtain ⟨d, hd'⟩ : ∃ d, p.parseWord ct word = .ok d := by
          rw [C37_word p word w hw', hBw]
          rcases C37_exact hct w p.exceptDict (breaksOf brk r w) look hd hg.readable (hBw w ▸ hbr' w) with ⟨h1 | h1, h2⟩
          · exact h1
          · exact absurd (h2.mp h1) hdead
        have hj : ¬ ((given args ch!"j" = true ∧ given args ch!"g" = false) →
            w ≠ [] ∧ ∃ es, RuleReading ct w look (breaksOf brk r w) es) := fun hj =>
          hbad ⟨w, hw, fun c hc => hdead ⟨c, hc⟩, hj⟩
        rw [Classical.not_imp] at hj
        obtain ⟨⟨hj1, hj2⟩, hnr⟩ := hj
        have h0 : d.mFrom = [] := by
          by_contra h0
          have := (edges_iff_reading hct hw' hd hg hd').mp h0
          rw [hBw] at this
          exact hnr this
        have hout : r.outputs ≠ [] := by
          have := (C50_notation args (getLines stdin) r hplan).length_eq
          intro h0
          rw [h0] at this
          split at this
          · cases this
          · next h => exact h (List.length_eq_zero_iff.mp this)
        obtain ⟨-, hjs, -⟩ := C50_json args (getLines stdin) r hplan
        obtain ⟨-, hres, -⟩ := doParseS_facts (p.parseWord ct) r.outputs word
        rw [hres, doParse, hd', ok_bind]
        cases ho : r.outputs with
        | nil => exact absurd ho hout
        | cons k ks =>
          obtain ⟨c, rfl⟩ := hjs hj2 hj1 k (by rw [ho]; exact List.mem_cons_self)
          have : OutKind.run (.json c) d = .ub := by
            show jsonDag (sylOutputOf c) d = .ub
            rw [jsonDag, (C38_nonempty hct hw' hd hg hd').mpr h0]
            rfl
          simp only [outputsLoop, this]
          rfl
      show ((wordsS (p.parseWord ct) r.outputs (done ++ word :: rest)).res >>= fun _ => (Res.ok 0 : Res Nat)) = .ub
      rw [k2 hub]
      rfl

/-- The usual run: words on the command line, no options, the dictionary generated from the shipped sources. If the words
are valid UTF-8 and none ends with a leading vowel other than SARA E, the program succeeds without a complaint and prints
for each word in turn a heading, and then all its pronunciations, each once: as Thai lines, as romanized lines, and as
phonetic lines. -/
theorem C90_usual (junk : Byte) (t : Trie) (bank : Gen.DataBank)
    (hgen : Gen.genDict junk (exceptEntries.flatMap entryLine) = .ok (.success t bank))
    (hfile : files none = Gen.GenResult.file (.success t bank)) (hargs : args ≠ [])
    (hno : ∀ a ∈ args, a.head? ≠ some ch!"-") (hbr : ∀ w, ∀ b ∈ brk w, b ≤ w.length)
    (hutf : ∀ a ∈ args, ∃ w, UtfForms a w ∧ ∀ c, w.getLast? = some c → c ∉ u!"แโใไ") :
    (mainS prog version dflt thaiCType brk files args stdin).res = .ok 0 ∧
    (mainS prog version dflt thaiCType brk files args stdin).err = [] ∧
    ∃ blocks, (mainS prog version dflt thaiCType brk files args stdin).out = blocks.flatten ∧
      List.Forall₂ (fun word block => ∃ w ss, UtfForms word w ∧
        Pronunciations thaiCType (lastData exceptEntries) w (brk w) ss ∧
        block = word ++ b!":\n" ++
          ((ss.flatMap fun x => joinWith ch!"-" (x.map (textOf thaiSyl)) ++ b!"\n") ++ b!"\n") ++
          ((ss.flatMap fun x => hyphenated (textOf romanSyl) x ++ b!"\n") ++ b!"\n") ++
          ((ss.flatMap fun x => joinWith ch!" " (x.map (textOf phoneticSyl)) ++ b!"\n") ++ b!"\n")) args blocks := by
  have hopt : ∀ a ∈ args, isOpt a = false := fun a ha => by
    unfold isOpt
    simpa using hno a ha
  have hlet : ∀ a ∈ args, optLetter a = none := fun a ha => by
    unfold optLetter
    rw [hopt a ha]
    rfl
  have hgiven : ∀ c, given args c = false := fun c => by
    unfold given
    rw [List.any_eq_false]
    intro a ha
    rw [hlet a ha]
    simp
  have hnot : notations args = [] := by
    unfold notations
    have : args.filterMap optLetter = [] := List.filterMap_eq_nil_iff.mpr hlet
    rw [this]
    rfl
  have hr : (⟨none, true, [.delim ch!"t" ch!"-", .roman, .delim ch!"p" ch!" "], args⟩ : Run) = meaning args (getLines stdin) := by
    have hdict : (args.filter fun a => optLetter a == some ch!"d") = [] := by
      rw [List.filter_eq_nil_iff]
      intro a ha
      rw [hlet a ha]
      simp
    have hw : (if args.all isOpt then getLines stdin else args.filter fun a => !isOpt a) = args := by
      rw [if_neg, List.filter_eq_self]
      · intro a ha
        rw [hopt a ha]
        rfl
      · obtain ⟨a, ha⟩ := List.exists_mem_of_ne_nil _ hargs
        intro h
        have := List.all_eq_true.mp h a ha
        rw [hopt a ha] at this
        cases this
    unfold meaning
    rw [hdict, hw, hnot, hgiven, hgiven, hgiven]
    rfl
  obtain ⟨t', b', p, k1, k2, k3, hd, hg⟩ := C48_dict junk (Parser.new brk true)
  rw [hgen] at k1
  cases k1
  rw [← hfile] at k2
  have hbw : ∀ w, findBreaks w p.thBrk = brk w := fun w => by rw [k3]; rfl
  obtain ⟨h1, -, h3⟩ := C90_run prog version dflt thaiCType brk files args stdin thaiCType_ok
    (fun a ha h => by rw [hopt a ha] at h; cases h) _ hr p true k2 (lastData exceptEntries) hd hg hbr
  obtain ⟨g1, bs, g2, g3⟩ := h1 (by
    intro word hword
    obtain ⟨w, hw, hlast⟩ := hutf word hword
    have hw' := utfForms_iff.mp hw
    refine ⟨w, hw, fun c hc => ?_, fun hj => ?_⟩
    · obtain ⟨d, hd'⟩ := C37_partial thaiCType_ok p word w _ hw' hd hg.readable (by rw [hbw]; exact hbr w) (by
        intro c hc hld
        have hnot := hlast c hc
        have hld : (decide (0x0e40 ≤ c) && decide (c ≤ 0x0e44)) = true := hld
        simp only [Bool.and_eq_true, decide_eq_true_eq] at hld
        obtain ⟨l1, l2⟩ := hld
        by_contra hne
        have hne : c ≠ 0x0e40 := hne
        have h5 : c = 0x0e41 ∨ c = 0x0e42 ∨ c = 0x0e43 ∨ c = 0x0e44 := by omega
        exact hnot (by rcases h5 with rfl | rfl | rfl | rfl <;> decide))
      rw [C37_word p word w hw', hbw] at hd'
      have := (C37_exact thaiCType_ok w p.exceptDict (brk w) _ hd hg.readable (hbr w)).2.mpr ⟨c, hc⟩
      rw [hd'] at this
      cases this
    · rw [hgiven] at hj
      cases hj.1)
  refine ⟨g1, by rw [h3]; rfl, bs, g3, ?_⟩
  refine List.Forall₂.imp (fun word block h => ?_) g2
  obtain ⟨w, ss, ts, a1, a2, a3, rfl⟩ := h
  refine ⟨w, ss, a1, a2, ?_⟩
  match ts, a3 with
  | _, .cons (a := _) h1 (.cons h2 (.cons h3 .nil)) =>
    have h1 : _ = ss.flatMap fun x => joinWith ch!"-" (x.map (textOf thaiSyl)) ++ b!"\n" := h1
    have h2 : _ = ss.flatMap fun x => hyphenated (textOf romanSyl) x ++ b!"\n" := h2
    have h3 : _ = ss.flatMap fun x => joinWith ch!" " (x.map (textOf phoneticSyl)) ++ b!"\n" := h3
    simp only [List.flatMap_cons, List.flatMap_nil, List.append_nil, List.append_assoc, h1, h2, h3]

/-- The hypotheses of `C90_usual`. -/
example : ∃ t bank, Gen.genDict 0 (exceptEntries.flatMap entryLine) = .ok (.success t bank) ∧
    [b!"กา", b!"ทราบ", b!"a1"] ≠ [] ∧ (∀ a ∈ [b!"กา", b!"ทราบ", b!"a1"], a.head? ≠ some ch!"-") ∧
    (∀ a ∈ [b!"กา", b!"ทราบ", b!"a1"], ∃ w, UtfForms a w ∧ ∀ c, w.getLast? = some c → c ∉ u!"แโใไ") := by
  obtain ⟨t, b, -, h, -⟩ := C48_dict 0 (Parser.new (fun _ => []) true)
  refine ⟨t, b, h, by simp, by decide, fun a ha => ?_⟩
  simp only [List.mem_cons, List.not_mem_nil, or_false] at ha
  rcases ha with rfl | rfl | rfl
  · exact ⟨u!"กา", utfForms_iff.mpr (by decide +kernel), by decide⟩
  · exact ⟨u!"ทราบ", utfForms_iff.mpr (by decide +kernel), by decide⟩
  · exact ⟨u!"a1", utfForms_iff.mpr (by decide +kernel), by decide⟩

/-- The hypotheses of the second part of `C90_run`: of กา and แ the first is printed, then the heading of the second, and an
exception ends the program. -/
example : ∃ blocks, List.Forall₂ (Printed thaiCType (fun _ => none) (fun _ => []) [.delim ch!"t" ch!"-"]) [b!"กา"] blocks ∧
    (mainS prog version dflt thaiCType (fun _ => []) (fun _ => none) [b!"-t", b!"กา", b!"แ"] []).res = .throw .outOfRange ∧
    (mainS prog version dflt thaiCType (fun _ => []) (fun _ => none) [b!"-t", b!"กา", b!"แ"] []).out =
      blocks.flatten ++ b!"แ:\n" := by
  have hd : Holds (some Dict.empty) (fun _ => none) := holds_empty
  obtain ⟨d, h1, -⟩ := parsesTo_spec (n := 50) (w := u!"กา") (dict := some Dict.empty) (brk := []) (P := fun _ => true) (by decide +kernel)
  have h2 : parseU16Fuel thaiCType u!"แ" 10 (some Dict.empty) [] = .throw .outOfRange := by decide +kernel
  have h2 := (parseU16_fuel (n := 10) (by rw [h2]; simp)).trans h2
  have e1 := C37_exact thaiCType_ok u!"กา" (some Dict.empty) [] _ hd readable_none (by simp)
  have e2 := C37_exact thaiCType_ok u!"แ" (some Dict.empty) [] _ hd readable_none (by simp)
  have hdead := e2.2.mp h2
  obtain ⟨bs, a1, -, a3, -⟩ := (C90_run prog version dflt thaiCType (fun _ => []) (fun _ => none) [b!"-t", b!"กา", b!"แ"] []
    thaiCType_ok (by decide) ⟨none, true, [.delim ch!"t" ch!"-"], [b!"กา", b!"แ"]⟩ (by decide) ⟨some Dict.empty, some fun _ => []⟩
    false rfl _ hd (by intro _ _ h; cases h) (by simp)).2.1 [b!"กา"] b!"แ" [] rfl
    (by
      intro x hx
      rw [List.mem_singleton.mp hx]
      refine ⟨u!"กา", utfForms_iff.mpr (by decide +kernel), fun c hc => ?_, fun hj => absurd hj.1 (by decide)⟩
      have := e1.2.mpr ⟨c, hc⟩
      rw [h1] at this
      cases this)
    (by
      rintro ⟨w, hw, hn, -⟩
      have : w = u!"แ" := by
        have h3 : fromBytes b!"แ" = .ok u!"แ" := by decide +kernel
        rw [utfForms_iff.mp hw] at h3
        exact Res.ok.inj h3
      subst this
      obtain ⟨c, hc⟩ := hdead
      exact hn c hc)
  obtain ⟨g1, g2⟩ := a3 u!"แ" (utfForms_iff.mpr (by decide +kernel)) hdead
  exact ⟨bs, a1, g1, g2⟩

end

end Thpronun
