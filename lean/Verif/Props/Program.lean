import Verif.Props.Cli
import Verif.Lemmas.Rules

/-! # The whole program: C55 -/

namespace Thpronun
open Res Spec DAG Cli

variable {ct : CType} {w : U16Str} {look : List Nat → Option Str} {p : Parser} {word : Str} {d : PronunDAG}

/-- Every output format is defined on the result of the parser, but plain JSON only if there is a pronunciation. -/
theorem run_defd (hct : ct.Ok) (hw : fromBytes word = .ok w) (hd : Holds p.exceptDict look) (hg : GoodLook look)
    (h : p.parseWord ct word = .ok d) (k : OutKind) (hk : (∃ c, k = .json c) → d.mFrom ≠ []) : ∃ t, k.run d = .ok t := by
  have hso : ∀ c, sylOutputOf c ∈ [rawSyl, romanSyl, phoneticSyl, soundexSyl, thaiSyl] := by
    intro c
    unfold sylOutputOf
    repeat' split
    all_goals simp
  obtain ⟨hb, ha⟩ := C38_acyclic hct hw hd hg h
  have hp : ∀ c, ∀ e ∈ d.mFrom, ∃ t, sylOutputOf c e.val = .ok t := fun c e he => by
    obtain ⟨t, ht, -⟩ := C39_prints hct hw hd hg h e he _ (hso c)
    exact ⟨t, ht⟩
  cases k with
  | delim c s =>
    obtain ⟨ss, -, h2⟩ := C39_delimited hct hw hd hg h _ (hso c) s
    exact ⟨_, h2⟩
  | roman =>
    obtain ⟨ss, -, h2⟩ := C39_roman hct hw hd hg h
    exact ⟨_, h2⟩
  | json c =>
    obtain ⟨ps, h1, -, h3⟩ := C15_listing d hb ha
    have hne : (ps.map fun q => q.map fun e => e.val) ≠ [] := by
      intro h0
      rw [h0] at h1
      exact hk ⟨c, rfl⟩ ((C38_nonempty hct hw hd hg h).mp h1)
    show ∃ t, jsonDag (sylOutputOf c) d = .ok t
    rw [jsonDag, h1, ok_bind, jsonList_eq_bracket _ _ hne]
    refine bracketList_defd fun s hs => ?_
    obtain ⟨q, hq, rfl⟩ := List.mem_map.mp hs
    refine jsonStr_defd (by cases (h3 q).mp hq <;> simp) fun x hx => ?_
    obtain ⟨e, he, rfl⟩ := List.mem_map.mp hx
    exact hp c e (mem_of_maxPath ((h3 q).mp hq) e he)
  | gjson c =>
    have hroot : ∀ u, ¬ Arrow d u 0 := by
      rintro u ⟨e, he, ht⟩
      obtain ⟨hm, hk⟩ := mem_outEdges.mp he
      obtain ⟨-, p1, p2, -⟩ := C38_edges hct hw hd hg h e hm
      rw [ht] at p2
      have : place 0 = 0 := rfl
      omega
    obtain ⟨_, f, latt, _, hf, hl, _⟩ := C17_same_readings d ha hroot
    have happ : ∀ a b : SylString, (a ≠ [] ∧ ∀ x ∈ a, ∃ t, sylOutputOf c x = .ok t) →
        (b ≠ [] ∧ ∀ x ∈ b, ∃ t, sylOutputOf c x = .ok t) → (a ++ b ≠ [] ∧ ∀ x ∈ a ++ b, ∃ t, sylOutputOf c x = .ok t) :=
      fun a b ha hb => ⟨by simp [ha.1], fun x hx => (List.mem_append.mp hx).elim (ha.2 x) (hb.2 x)⟩
    have hP := fracDAG_alts (P := fun s => s ≠ [] ∧ ∀ x ∈ s, ∃ t, sylOutputOf c x = .ok t) happ d
      fun e he => ⟨by simp, by simpa using hp c e he⟩
    rw [hf, Res.satP_ok] at hP
    have hL := lattice_alts happ f hP
    rw [hl, Res.satP_ok] at hL
    obtain ⟨t, ht⟩ : ∃ t, gjsonLatt (sylOutputOf c) latt = .ok t :=
      bracketList_defd fun chain hc => bracketList_defd fun frac hf => bracketList_defd fun s hs =>
        jsonStr_defd (hL chain hc frac hf s hs).1 (hL chain hc frac hf s hs).2
    exact ⟨t, by show gjsonDag _ d = _; rw [gjsonDag, hf, ok_bind, hl, ok_bind, ht]⟩

/-! ## C55: the program ends normally -/

/-- Plain JSON output for an empty line of the standard input: the end of an empty list is dereferenced. -/
theorem C55_json_false : main thaiCType (fun _ => []) (fun _ => none) [b!"-j"] b!"\n" = .ub := by
  have hplan : plan [b!"-j"] (getLines b!"\n") =
      .ok (.inr ⟨none, true, [.json ch!"t", .json ch!"r", .json ch!"p"], [[]]⟩) := by decide +kernel
  unfold main
  rw [hplan]
  simp only [ok_bind]
  have hl : (Parser.new (fun _ => []) true).loadExceptDict none =
      .ok (⟨some Dict.empty, some fun _ => []⟩, false) := rfl
  rw [hl]
  simp only [ok_bind, wordsLoop, doParse]
  rw [C37_word _ [] [] rfl, C40_empty, ok_bind]
  rfl

/-- Likewise for a word without any reading. -/
theorem C55_noreading_false : main thaiCType (fun _ => []) (fun _ => none) [b!"-j", b!"ะ"] [] = .ub := by
  have hplan : plan [b!"-j", b!"ะ"] (getLines []) =
      .ok (.inr ⟨none, true, [.json ch!"t", .json ch!"r", .json ch!"p"], [b!"ะ"]⟩) := by decide +kernel
  have hw : fromBytes b!"ะ" = .ok u!"ะ" := by decide +kernel
  have hparse : parseU16Fuel thaiCType u!"ะ" 10 (some Dict.empty) [] = .ok DAG.empty := by decide +kernel
  have hparse := (parseU16_fuel (n := 10) (by rw [hparse]; simp)).trans hparse
  unfold main
  rw [hplan]
  simp only [ok_bind]
  have hl : (Parser.new (fun _ => []) true).loadExceptDict none =
      .ok (⟨some Dict.empty, some fun _ => []⟩, false) := rfl
  rw [hl]
  simp only [ok_bind, wordsLoop, doParse]
  rw [C37_word _ _ _ hw]
  have hp : parseU16 thaiCType u!"ะ" (⟨some Dict.empty, some fun _ => []⟩ : Parser).exceptDict
      (findBreaks u!"ะ" (⟨some Dict.empty, some fun _ => []⟩ : Parser).thBrk) = .ok DAG.empty := hparse
  rw [hp, ok_bind]
  rfl

/-- A word that ends with a leading vowel ends the program by an exception. -/
theorem C55_throw_false : main thaiCType (fun _ => []) (fun _ => none) [b!"แ"] [] = .throw .outOfRange := by
  have hplan : plan [b!"แ"] (getLines []) =
      .ok (.inr ⟨none, true, [.delim ch!"t" ch!"-", .roman, .delim ch!"p" ch!" "], [b!"แ"]⟩) := by decide +kernel
  have hw : fromBytes b!"แ" = .ok u!"แ" := by decide +kernel
  have hparse : parseU16Fuel thaiCType u!"แ" 10 (some Dict.empty) [] = .throw .outOfRange := by decide +kernel
  have hparse := (parseU16_fuel (n := 10) (by rw [hparse]; simp)).trans hparse
  unfold main
  rw [hplan]
  simp only [ok_bind]
  have hl : (Parser.new (fun _ => []) true).loadExceptDict none =
      .ok (⟨some Dict.empty, some fun _ => []⟩, false) := rfl
  rw [hl]
  simp only [ok_bind, wordsLoop, doParse]
  rw [C37_word _ _ _ hw]
  have hp : parseU16 thaiCType u!"แ" (⟨some Dict.empty, some fun _ => []⟩ : Parser).exceptDict
      (findBreaks u!"แ" (⟨some Dict.empty, some fun _ => []⟩ : Parser).thBrk) = .throw .outOfRange := hparse
  rw [hp]
  rfl

/-- The program ends normally and prints one block for each word in order, whatever the options, provided that all
words are valid UTF-8 and none ends with a leading vowel other than SARA E, the dictionary is readable, and, for plain
JSON output, every word has a reading. (Missing: the cases above, and invalid UTF-8, which ends the program by an
exception as well.) -/
theorem C55_partial (hct : ct.Ok) (brk : U16Str → List Int) (files : Option Str → Option DictFile) (args : List Str)
    (stdin : Str) (r : Run) (hgood : ∀ a ∈ args, GoodArg a) (hr : r = meaning args (getLines stdin)) (b : Bool)
    (hl : (Parser.new brk r.isBreakWords).loadExceptDict (files r.dictPath) = .ok (p, b))
    (hd : Holds p.exceptDict look) (hg : GoodLook look)
    (hw : ∀ word ∈ r.words, ∃ w, fromBytes word = .ok w ∧ (∀ b ∈ findBreaks w p.thBrk, b ≤ w.length) ∧
      ∀ c, w.getLast? = some c → ct.isLdVowel c = true → c = UTH.SARA_E)
    (hj : given args ch!"j" = true → given args ch!"g" = false → ∀ word ∈ r.words,
      ∃ w es, fromBytes word = .ok w ∧ w ≠ [] ∧ RuleReading ct w look (findBreaks w p.thBrk) es) :
    ∃ blocks, main ct brk files args stdin = .ok (.inr blocks.flatten) ∧
      List.Forall₂ (IsBlock (p.parseWord ct) r.outputs) r.words blocks := by
  have hplan := (C50_exact args (getLines stdin) r).mpr ⟨hgood, hr⟩
  obtain ⟨-, -, hnj⟩ := C50_json args (getLines stdin) r hplan
  have hone : ∀ word ∈ r.words, ∃ block, IsBlock (p.parseWord ct) r.outputs word block := by
    intro word hword
    obtain ⟨w, hfw, hbr, hlast⟩ := hw word hword
    obtain ⟨d, hd'⟩ := C37_partial hct p word w look hfw hd hg.readable hbr hlast
    have hrun : ∀ k ∈ r.outputs, ∃ t, k.run d = .ok t := by
      intro k hk
      refine run_defd hct hfw hd hg hd' k ?_
      rintro ⟨c, rfl⟩
      obtain ⟨hj1, hj2, hj3⟩ := C50_json args (getLines stdin) r hplan
      have hgf : given args ch!"g" = false := by
        by_contra hn
        obtain ⟨c', h⟩ := hj1 (by simpa using hn) _ hk
        cases h
      have hjt : given args ch!"j" = true := by
        by_contra hn
        rcases hj3 hgf (by simpa using hn) _ hk with h | ⟨c', d', h⟩ <;> cases h
      obtain ⟨w', es, hfw', hwne, hread⟩ := hj hjt hgf word hword
      replace hread := (ruleReading_iff hct).mp hread
      rw [hfw] at hfw'; cases hfw'
      have hne : es ≠ [] := by
        rintro rfl
        have h0 : (0 : Int) = w.length := (reading_inv hct hg hread).chain
        exact hwne (List.length_eq_zero_iff.mp (by omega))
      obtain ⟨e, he⟩ := List.exists_mem_of_ne_nil es hne
      have hpar := hd'
      rw [C37_word p word w hfw] at hpar
      obtain ⟨e', he', -⟩ := reading_edge hct hd hpar hread he
      intro h0
      have := (mem_outEdges.mp he').1
      rw [h0] at this; cases this
    have : ∀ ks : List OutKind, (∀ k ∈ ks, ∃ t, k.run d = .ok t) → ∃ ts, List.Forall₂ (fun k t => k.run d = .ok t) ks ts := by
      intro ks
      induction ks with
      | nil => exact fun _ => ⟨[], .nil⟩
      | cons k ks ih =>
        intro h
        obtain ⟨t, ht⟩ := h k (by simp)
        obtain ⟨ts, hts⟩ := ih fun x hx => h x (by simp [hx])
        exact ⟨t :: ts, .cons ht hts⟩
    obtain ⟨ts, hts⟩ := this _ hrun
    exact ⟨_, d, ts, hd', hts, rfl⟩
  have hall : ∀ ws : List Str, (∀ x ∈ ws, ∃ block, IsBlock (p.parseWord ct) r.outputs x block) →
      ∃ bs, List.Forall₂ (IsBlock (p.parseWord ct) r.outputs) ws bs := by
    intro ws
    induction ws with
    | nil => exact fun _ => ⟨[], .nil⟩
    | cons k ks ih =>
      intro h
      obtain ⟨t, ht⟩ := h k (by simp)
      obtain ⟨ts, hts⟩ := ih fun x hx => h x (by simp [hx])
      exact ⟨t :: ts, .cons ht hts⟩
  obtain ⟨bs, hbs⟩ := hall _ hone
  refine ⟨bs, ?_, hbs⟩
  unfold main
  rw [hplan]
  simp only [ok_bind]
  rw [hl]
  simp only [ok_bind]
  rw [(C52_output _ _ _ _).mpr ⟨bs, hbs, rfl⟩]
  rfl

/-- The result of the parser has an edge if and only if the text is not empty and has a reading. -/
theorem edges_iff_reading (hct : ct.Ok) (hw : fromBytes word = .ok w) (hd : Holds p.exceptDict look) (hg : GoodLook look)
    (h : p.parseWord ct word = .ok d) :
    d.mFrom ≠ [] ↔ w ≠ [] ∧ ∃ es, RuleReading ct w look (findBreaks w p.thBrk) es := by
  simp only [ruleReading_iff hct]
  rw [C37_word p word w hw] at h
  constructor
  · intro hne
    obtain ⟨e, he⟩ := List.exists_mem_of_ne_nil _ hne
    obtain ⟨es, -, hr, -⟩ := edge_reading hct hd h he
    refine ⟨?_, es, hr⟩
    rintro rfl
    rw [C40_empty] at h
    cases h
    exact hne rfl
  · rintro ⟨hwne, es, hread⟩ h0
    have hne : es ≠ [] := by
      rintro rfl
      have h0 : (0 : Int) = w.length := (reading_inv hct hg hread).chain
      exact hwne (List.length_eq_zero_iff.mp (by omega))
    obtain ⟨e, he⟩ := List.exists_mem_of_ne_nil es hne
    obtain ⟨e', he', -⟩ := reading_edge hct hd h hread he
    have := (mem_outEdges.mp he').1
    rw [h0] at this; cases this

theorem main_blocks {ct : CType} {p : Parser} {brk : U16Str → List Int} {files : Option Str → Option DictFile} {args : List Str}
    {stdin : Str} {r : Run} (hplan : plan args (getLines stdin) = .ok (.inr r)) {b : Bool}
    (hl : (Parser.new brk r.isBreakWords).loadExceptDict (files r.dictPath) = .ok (p, b)) :
    (∃ t, main ct brk files args stdin = .ok (.inr t)) ↔
      ∀ word ∈ r.words, ∃ block, IsBlock (p.parseWord ct) r.outputs word block := by
  have : main ct brk files args stdin = (wordsLoop (p.parseWord ct) r.outputs r.words >>= fun o => .ok (.inr o)) := by
    unfold main
    rw [hplan]
    simp only [ok_bind]
    rw [hl]
    rfl
  rw [this]
  constructor
  · rintro ⟨t, ht⟩
    obtain ⟨o, ho, -⟩ := Res.bind_eq_ok.mp ht
    obtain ⟨bs, hbs, -⟩ := (C52_output _ _ _ _).mp ho
    clear ht ho hl hplan
    generalize r.words = ws at hbs
    induction hbs with
    | nil => intro x hx; cases hx
    | cons h _ ih =>
      intro x hx
      rcases List.mem_cons.mp hx with rfl | hx
      · exact ⟨_, h⟩
      · exact ih x hx
  · intro h
    have hall : ∀ ws : List Str, (∀ x ∈ ws, ∃ block, IsBlock (p.parseWord ct) r.outputs x block) →
        ∃ bs, List.Forall₂ (IsBlock (p.parseWord ct) r.outputs) ws bs := by
      intro ws
      induction ws with
      | nil => exact fun _ => ⟨[], .nil⟩
      | cons k ks ih =>
        intro h
        obtain ⟨t, ht⟩ := h k (by simp)
        obtain ⟨ts, hts⟩ := ih fun x hx => h x (by simp [hx])
        exact ⟨t :: ts, .cons ht hts⟩
    obtain ⟨bs, hbs⟩ := hall _ h
    rw [(C52_output _ _ _ _).mpr ⟨bs, hbs, rfl⟩]
    exact ⟨_, rfl⟩

theorem block_iff {r : Run} {args : List Str} {stdin : Str} (hct : ct.Ok) (hplan : plan args (getLines stdin) = .ok (.inr r)) (hd : Holds p.exceptDict look) (hg : GoodLook look)
    (hbr : ∀ w, fromBytes word = .ok w → ∀ b ∈ findBreaks w p.thBrk, b ≤ w.length) :
    (∃ block, IsBlock (p.parseWord ct) r.outputs word block) ↔
      ∃ w, fromBytes word = .ok w ∧ (∀ c, ¬ DeadEnd ct w look (findBreaks w p.thBrk) c) ∧
        (given args ch!"j" = true → given args ch!"g" = false →
          w ≠ [] ∧ ∃ es, RuleReading ct w look (findBreaks w p.thBrk) es) := by
  simp only [deadEnd_iff hct]
  obtain ⟨hj1, hj2, hj3⟩ := C50_json args (getLines stdin) r hplan
  have hout : r.outputs ≠ [] := by
    have := (C50_notation args (getLines stdin) r hplan).length_eq
    intro h0
    rw [h0] at this
    split at this
    · cases this
    · next h => exact h (List.length_eq_zero_iff.mp this)
  constructor
  · rintro ⟨block, d, ts, hd', hts, -⟩
    obtain ⟨w, hw⟩ : ∃ w, fromBytes word = .ok w := by
      unfold Parser.parseWord at hd'
      obtain ⟨w, hw, -⟩ := Res.bind_eq_ok.mp hd'
      exact ⟨w, hw⟩
    refine ⟨w, hw, fun c hc => ?_, fun h1 h2 => ?_⟩
    · rw [C37_word p word w hw] at hd'
      exact not_ok_of_stuck hct hd hc hd'
    · refine (edges_iff_reading hct hw hd hg hd').mp fun h0 => ?_
      obtain ⟨k, hk⟩ := List.exists_mem_of_ne_nil _ hout
      obtain ⟨c, rfl⟩ := hj2 h2 h1 k hk
      obtain ⟨t, -, ht⟩ := forall₂_mem_left hts hk
      have ht : jsonDag (sylOutputOf c) d = .ok t := ht
      rw [jsonDag, (C38_nonempty hct hw hd hg hd').mpr h0] at ht
      cases ht
  · rintro ⟨w, hw, hstuck, hjson⟩
    obtain ⟨d, hd'⟩ : ∃ d, p.parseWord ct word = .ok d := by
      rw [C37_word p word w hw]
      obtain ⟨h1, h2⟩ := parse_exact hct w p.exceptDict (findBreaks w p.thBrk) look hd hg.readable (hbr w hw)
      rcases h1 with h1 | h1
      · exact h1
      · obtain ⟨c, hc⟩ := h2.mp h1
        exact absurd hc (hstuck c)
    have hrun : ∀ k ∈ r.outputs, ∃ t, k.run d = .ok t := by
      intro k hk
      refine run_defd hct hw hd hg hd' k ?_
      rintro ⟨c, rfl⟩
      have hgf : given args ch!"g" = false := by
        by_contra hn
        obtain ⟨c', h⟩ := hj1 (by simpa using hn) _ hk
        cases h
      have hjt : given args ch!"j" = true := by
        by_contra hn
        rcases hj3 hgf (by simpa using hn) _ hk with h | ⟨c', d', h⟩ <;> cases h
      exact (edges_iff_reading hct hw hd hg hd').mpr (hjson hjt hgf)
    have : ∀ ks : List OutKind, (∀ k ∈ ks, ∃ t, k.run d = .ok t) → ∃ ts, List.Forall₂ (fun k t => k.run d = .ok t) ks ts := by
      intro ks
      induction ks with
      | nil => exact fun _ => ⟨[], .nil⟩
      | cons k ks ih =>
        intro h
        obtain ⟨t, ht⟩ := h k (by simp)
        obtain ⟨ts, hts⟩ := ih fun x hx => h x (by simp [hx])
        exact ⟨t :: ts, .cons ht hts⟩
    obtain ⟨ts, hts⟩ := this _ hrun
    exact ⟨_, d, ts, hd', hts, rfl⟩

/-- Exactly when the program ends normally, given well-formed options, a dictionary that is loaded and whose readings
lead forward, and breaks inside the words: every word is valid UTF-8, no partial reading of it comes to a leading vowel
at its end, and, for plain JSON output, it is not empty and has a reading. -/
theorem C55_exact (hct : ct.Ok) (brk : U16Str → List Int) (files : Option Str → Option DictFile) (args : List Str)
    (stdin : Str) (r : Run) (hgood : ∀ a ∈ args, GoodArg a) (hr : r = meaning args (getLines stdin)) (b : Bool)
    (hl : (Parser.new brk r.isBreakWords).loadExceptDict (files r.dictPath) = .ok (p, b))
    (hd : Holds p.exceptDict look) (hg : GoodLook look)
    (hbr : ∀ word ∈ r.words, ∀ w, fromBytes word = .ok w → ∀ b ∈ findBreaks w p.thBrk, b ≤ w.length) :
    (∃ t, main ct brk files args stdin = .ok (.inr t)) ↔
      ∀ word ∈ r.words, ∃ w, fromBytes word = .ok w ∧ (∀ c, ¬ DeadEnd ct w look (findBreaks w p.thBrk) c) ∧
        (given args ch!"j" = true → given args ch!"g" = false →
          w ≠ [] ∧ ∃ es, RuleReading ct w look (findBreaks w p.thBrk) es) := by
  have hplan := (C50_exact args (getLines stdin) r).mpr ⟨hgood, hr⟩
  rw [main_blocks hplan hl]
  exact forall₂_congr fun word hword => block_iff hct hplan hd hg (hbr word hword)

/-- Without a dictionary file. -/
theorem holds_empty : Holds (some Dict.empty) fun _ => none := by
  intro text pos _
  have : prefixMatches (fun _ => none) text pos = [] := by simp [prefixMatches]
  rw [this]
  exact .stop (Match.new text pos Dict.empty) rfl rfl

/-- The hypotheses of `C55_partial` without a dictionary file. -/
example : ∀ a ∈ [b!"-p", b!"-n", b!"กา", b!"Hello"], GoodArg a := by decide +kernel

example : (meaning [b!"-p", b!"-n", b!"กา", b!"Hello"] []).words = [b!"กา", b!"Hello"] ∧
    (Parser.new (fun _ => []) false).loadExceptDict none = .ok (⟨some Dict.empty, none⟩, false) ∧
    (∀ word ∈ [b!"กา", b!"Hello"], ∃ w ∈ [u!"กา", u!"Hello"], fromBytes word = .ok w) := ⟨by decide +kernel, rfl, by decide +kernel⟩

/-- `C55_exact` in use. -/
example : ∃ t, main thaiCType (fun _ => []) (fun _ => none) [b!"-p", b!"-n", b!"กา"] [] = .ok (.inr t) := by
  refine (C55_exact thaiCType_ok (fun _ => []) (fun _ => none) [b!"-p", b!"-n", b!"กา"] [] _ (by decide +kernel) rfl false
    (p := ⟨some Dict.empty, none⟩) rfl holds_empty goodLook_none (fun _ _ _ _ b hb => ?_)).mpr fun word hw => ?_
  · cases hb
  · have hws : (meaning [b!"-p", b!"-n", b!"กา"] (getLines [])).words = [b!"กา"] := by decide +kernel
    rw [hws] at hw
    cases List.mem_singleton.mp hw
    refine ⟨u!"กา", by decide +kernel, ?_, fun h => ?_⟩
    · rintro c ⟨-, h1, ⟨x, h2, h3, -⟩, -⟩
      have : c.pos = 1 := by simpa using h1
      rw [this] at h2
      cases h2
      revert h3
      decide +kernel
    · exact absurd h (by decide +kernel)

/-- Invalid UTF-8 ends the program by an exception. -/
theorem C55_encoding (brk : U16Str → List Int) (word : Str) (hne : word.head? ≠ some ch!"-")
    (h : utf8Decode word = none) : main ct brk (fun _ => none) [word] [] = .throw .rangeError := by
  have ho : isOpt word = false := by
    unfold isOpt
    cases hw : word.head? with
    | none => rfl
    | some b =>
      rw [hw] at hne
      simpa using hne
  have hplan := (C50_exact [word] (getLines []) _).mpr ⟨fun a ha h' => (by
    rw [List.mem_singleton.mp ha, ho] at h'
    cases h'), rfl⟩
  unfold main
  rw [hplan]
  simp only [ok_bind]
  have hl : (Parser.new brk (meaning [word] (getLines [])).isBreakWords).loadExceptDict none =
      .ok (⟨some Dict.empty, (Parser.new brk (meaning [word] (getLines [])).isBreakWords).thBrk⟩, false) := rfl
  rw [hl]
  simp only [ok_bind]
  have hws : (meaning [word] (getLines [])).words = [word] := by
    simp [meaning, ho]
  rw [hws]
  simp only [wordsLoop, doParse]
  rw [C37_encoding _ _ h]
  rfl

end Thpronun
