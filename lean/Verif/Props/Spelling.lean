import Verif.Lemmas.Rules
import Verif.Lemmas.Simple
import Verif.Props.Readings

/-! # The spelling rules: C49 -/

namespace Thpronun
open Res Spec DAG

variable {ct : CType} {w : U16Str} {brk : List Int} {look : List Nat → Option Str} {p : Parser} {word : Str}
  {d : PronunDAG}

/-! ## The parser follows the rules

`Rule`, `RuleReading` (`Spec.Reading`) and `Spelled` (`Spec.Grammar`) do not mention the functions of the parser. -/

/-- The states the grammar adds at `q` in a token up to `t` are exactly the syllables that can be spelled there: same end,
link flag, pre-syllable and syllable. -/
theorem C49_grammar (hct : ct.Ok) {q t c : Nat} {l : Bool} (hq : q < t) (ht : t ≤ w.length) (hc : w[q]? = some c)
    {ems : List Emit} (h : grammar ct w q t l c = .ok ems) (stop : Nat) (linked : Bool) (new : List (Entry Syl)) :
    (∃ e ∈ ems, e.pos = stop ∧ e.linked = linked ∧ sylEdges q e = new) ↔
      ∃ o r, Spelled ct w t q l o r ∧ r.stop = stop ∧ r.linked = linked ∧ spelledEdges q o r = new := by
  have hs := (satP_iff _ _).mp (grammar_spelled (t := t) (l := l) hct hc) ems h
  constructor
  · rintro ⟨e, he, rfl, rfl, rfl⟩
    obtain ⟨o, r, h1, h2⟩ := hs.1 e he
    obtain ⟨k1, k2, k3⟩ := emitOf_edges (p := q) h2 (grammar_ok hct hq ht h e he).1.vowel
    exact ⟨o, r, h1, k1.symm, k2.symm, k3.symm⟩
  · rintro ⟨o, r, h1, rfl, rfl, rfl⟩
    obtain ⟨e, he, h2⟩ := hs.2 o r h1
    obtain ⟨k1, k2, k3⟩ := emitOf_edges (p := q) h2 (grammar_ok hct hq ht h e he).1.vowel
    exact ⟨e, he, k1, k2, k3⟩

/-- The steps of the readings are those of the rules. -/
theorem C49_step (hct : ct.Ok) (c c' : Config) : Step ct w look brk c c' ↔ Rule ct w look brk c c' :=
  (rule_iff hct).symm

/-- The edges of the result are exactly the edges of the readings by the rules. -/
theorem C43_edges (hct : ct.Ok) (hw : fromBytes word = .ok w) (hd : Holds p.exceptDict look)
    (h : p.parseWord ct word = .ok d) (u v : Int) (x : Syl) :
    Edge d u v x ↔ ∃ es, RuleReading ct w look (findBreaks w p.thBrk) es ∧
      ∃ e ∈ es, e.key = u ∧ e.target = v ∧ ceq e.val x = true := by
  simp only [ruleReading_iff hct]
  exact reading_edges_iff hct hw hd h u v x

/-- Every reading by the rules is among the listed pronunciations. -/
theorem C43_listed (hct : ct.Ok) (hw : fromBytes word = .ok w) (hd : Holds p.exceptDict look) (hg : GoodLook look)
    (h : p.parseWord ct word = .ok d) (hwne : w ≠ []) {es : List (Entry Syl)}
    (hr : RuleReading ct w look (findBreaks w p.thBrk) es) :
    ∃ ss, PronunDAG.sylStrings d 0 = .ok ss ∧ ∃ s ∈ ss,
      List.Forall₂ (fun x e => ceq x e.val = true ∧ x.endPos = e.target) s es :=
  reading_listed hct hw hd hg h hwne ((ruleReading_iff hct).mp hr)

/-- The hypotheses are met, and the rules give a reading: "กา". -/
example : ∃ d, (Parser.new (fun _ => []) false).parseWord thaiCType b!"กา" = .ok d ∧
    RuleReading thaiCType u!"กา" (fun _ => none) [] [⟨0, 2, ⟨.KA, SC.NONE, VW.AA, .NONE, .SAMAN, [], 2⟩⟩] := by
  obtain ⟨d, hd, -⟩ := parsesTo_spec (n := 10) (w := u!"กา") (dict := none) (brk := [])
    (P := fun _ => true) (by decide +kernel)
  refine ⟨d, hd, ⟨2, false, _⟩, .single (.syl (t := 2) (o := ⟨1, none, .KA, .MID, SC.NONE, none⟩) (r := ⟨2, false, VW.AA, .NONE, .SAMAN⟩)
    ?_ (fun q data h => by cases h.2.2.1) ?_ ?_), by decide, rfl⟩
  · refine ⟨by decide, by decide, fun i _ hi => ?_, by decide, .inl rfl⟩
    rcases i with _ | _ | i
    · exact ⟨_, rfl, .inl rfl⟩
    · exact ⟨_, rfl, .inr (.inl rfl)⟩
    · omega
  · rintro q ⟨-, -, ⟨n, -, -, -, h⟩ | ⟨h1, h2, -⟩⟩
    · rcases n with _ | _ | n
      · cases h
      · cases h
      · simp at h
    · omega
  · exact open_spelled (on := u!"ก") (mk := []) (k := 1) (pat := ⟨[], [], u!"า", VW.AA, .NONE, [], true⟩)
      ⟨ch!"ก", .KA, .MID, rfl, ⟨rfl, by decide, by decide⟩, .inl rfl⟩ (by decide) (by decide) ⟨rfl, rfl, rfl, rfl, .inl ⟨rfl, rfl⟩⟩

/-! ## Simple syllables -/

theorem pattern_chars : ∀ pat ∈ openPatterns ++ closedPatterns,
    (∀ x ∈ pat.lead ++ pat.sign ++ pat.tail, 0x0e00 ≤ x ∧
      (thaiCType.isCons x = true ∨ thaiCType.isVowel x = true ∨ thaiCType.isTone x = true ∨ x ∈ u!"็์.")) ∧
    (∀ x ∈ pat.sign ++ pat.tail, thaiCType.isLdVowel x = false) := by
  decide +kernel

theorem open_long : ∀ pat ∈ openPatterns, 0 < pat.lead.length + pat.sign.length + pat.tail.length := by decide +kernel

theorem marked_chars {mk : U16Str} {m : Tone} (h : Marked mk m) :
    ∀ x ∈ mk, 0x0e00 ≤ x ∧ thaiCType.isTone x = true ∧ thaiCType.isLdVowel x = false := by
  rcases h with ⟨rfl, -⟩ | ⟨x, hx, rfl⟩
  · simp
  · intro y hy
    cases List.mem_singleton.mp hy
    revert hx
    simp only [marks, List.mem_cons, Prod.mk.injEq, List.not_mem_nil, or_false]
    rintro (⟨rfl, -⟩ | ⟨rfl, -⟩ | ⟨rfl, -⟩ | ⟨rfl, -⟩) <;> decide

/-- A word that is one syllable by the rules has this reading, if there is no dictionary and no word break inside. -/
theorem one_syllable (hw : fromBytes word = .ok w) (hd : p.exceptDict = none)
    (hb : ∀ b ∈ findBreaks w p.thBrk, b ≤ 0 ∨ b = w.length) (hlen : 1 < w.length)
    (hch : ∀ x ∈ w, 0x0e00 ≤ x ∧
      (thaiCType.isCons x = true ∨ thaiCType.isVowel x = true ∨ thaiCType.isTone x = true ∨ x ∈ u!"็์."))
    (hlast : ∀ x, w.getLast? = some x → thaiCType.isLdVowel x = false) {o : Onset} {r : Rime} (hpre : o.pre = none)
    (hstop : r.stop = w.length) (h : Spelled thaiCType w w.length 0 false o r) :
    ∃ d ss x, p.parseWord thaiCType word = .ok d ∧ PronunDAG.sylStrings d 0 = .ok ss ∧ [x] ∈ ss ∧
      ceq x (spoken o r) = true ∧ x.endPos = w.length := by
  obtain ⟨d, hp⟩ := C37_partial thaiCType_ok p word w (fun _ => none) hw (hd ▸ holds_none) readable_none
    (fun b hb' => by rcases hb b hb' with h | h <;> omega)
    (fun c hc hl => by rw [hlast c hc] at hl; cases hl)
  have hnb : nextBreak w (findBreaks w p.thBrk) 0 = w.length := by
    unfold nextBreak
    cases hf : (findBreaks w p.thBrk).find? fun b => decide (b > ((0 : Nat) : Int)) with
    | none => rfl
    | some b =>
      have h1 := List.mem_of_find?_eq_some hf
      have h2 := List.find?_some hf
      simp only [Nat.cast_zero, gt_iff_lt, decide_eq_true_eq] at h2
      rcases hb b h1 with h | h
      · omega
      · simpa using h
  have hr : RuleReading thaiCType w (fun _ => none) (findBreaks w p.thBrk) [⟨0, w.length, spoken o r⟩] := by
    refine ⟨⟨r.stop, r.linked, [] ++ spelledEdges 0 o r⟩, .single (.syl (t := w.length) ?_
      (fun q data h => by cases h.2.2.1) ?_ h), by rw [hstop], ?_⟩
    · refine ⟨by omega, le_rfl, fun i _ hi => ?_, by rw [hnb], .inl hnb.symm⟩
      exact ⟨w[i], List.getElem?_eq_getElem hi, (hch _ (List.getElem_mem hi)).2⟩
    · rintro q ⟨-, -, ⟨n, -, -, -, h⟩ | ⟨h1, h2, -⟩⟩
      · have := (hch _ (List.mem_of_getElem? h)).1
        omega
      · omega
    · simp only [List.nil_append, spelledEdges, hpre, hstop]
      rfl
  obtain ⟨ss, h1, s, hs, hf⟩ := C43_listed thaiCType_ok hw (hd ▸ holds_none) goodLook_none hp
    (by rintro rfl; simp at hlen) hr
  cases hf with
  | cons h2 h3 =>
    cases h3
    exact ⟨d, ss, _, hp, h1, hs, h2.1, h2.2⟩

variable {on : U16Str} {snd : InitConsSound} {cls : InitConsClass} {sec : SecInitCons} {pat : Pattern} {mk : U16Str}
  {m : Tone}

/-- Every simple syllable without final consonant, with or without tone mark, is read as such: with the sound of the
onset, the vowel of the pattern, and the tone by the tone rules. The onset is a single consonant, a true cluster, one
with leading ห or one with silent ร (two letters ending in "ร" do not go before "ร"). -/
theorem C49_open (hw : fromBytes word = .ok w) (hd : p.exceptDict = none)
    (hb : ∀ b ∈ findBreaks w p.thBrk, b ≤ 0 ∨ b = w.length) (hon : OnsetText on snd cls sec)
    (hpat : pat ∈ openPatterns) (hm : Marked mk m)
    (hro : on.length = 2 → on[1]? = some ch!"ร" → (pat.sign ++ mk ++ pat.tail).head? ≠ some ch!"ร")
    (hword : w = pat.word on mk []) :
    ∃ d ss x, p.parseWord thaiCType word = .ok d ∧ PronunDAG.sylStrings d 0 = .ok ss ∧ [x] ∈ ss ∧
      ceq x ⟨snd, sec, pat.vowel, pat.final, spokenTone cls pat.vowel pat.final m, [], w.length⟩ = true ∧
      x.endPos = w.length := by
  have hpc := pattern_chars pat (List.mem_append_left _ hpat)
  have hmc := marked_chars hm
  have hlen : w.length = pat.lead.length + on.length + pat.sign.length + mk.length + pat.tail.length := by
    rw [hword]; simp [Pattern.word]; omega
  have hl := open_long pat hpat
  have P : Parts pat.lead on pat.sign mk pat.tail w w.length (pat.lead.length + on.length)
      (pat.lead.length + on.length + pat.sign.length + mk.length) m :=
    ⟨by rw [hword]; simp [Pattern.word], rfl, rfl, by omega, hm⟩
  have hj : on.length = 2 → on[1]? = some ch!"ร" → ¬ At w w.length (pat.lead.length + on.length) ch!"ร" := by
    intro h2 h1 h
    have h3 : w[pat.lead.length + on.length]? = (pat.sign ++ mk ++ pat.tail)[0]? := by
      rw [hword, Pattern.word]
      simp only [List.append_nil, List.append_assoc]
      rw [List.getElem?_append_right (by omega), List.getElem?_append_right (by omega)]
      congr 1
      omega
    exact hro h2 h1 (by rw [List.head?_eq_getElem?, ← h3, h.2])
  have hs := open_spelled (onset_text hon rfl (fun n d => P.o) hj) hpat hon.length P
  have ho := hon.length
  refine one_syllable hw hd hb (by omega) ?_ ?_ rfl rfl hs
  · intro x hx
    rw [hword, Pattern.word] at hx
    simp only [List.append_nil, List.mem_append] at hx
    rcases hx with (((hx | hx) | hx) | hx) | hx
    · exact hpc.1 x (by simp [hx])
    · have := hon.cons x hx
      exact ⟨by have := this.1; omega, .inl (cons_of this)⟩
    · exact hpc.1 x (by simp [hx])
    · exact ⟨(hmc x hx).1, .inr (.inr (.inl (hmc x hx).2.1))⟩
    · exact hpc.1 x (by simp [hx])
  · intro x hx
    have hx' : x ∈ on ++ (pat.sign ++ mk ++ pat.tail) := by
      have e : w = pat.lead ++ (on ++ (pat.sign ++ mk ++ pat.tail)) := by rw [hword]; simp [Pattern.word]
      have hne : on ++ (pat.sign ++ mk ++ pat.tail) ≠ [] := by
        rintro h
        rw [List.append_eq_nil_iff] at h
        simp [h.1] at ho
      rw [e, List.getLast?_append_of_ne_nil _ hne] at hx
      exact List.mem_of_getLast? hx
    simp only [List.mem_append] at hx'
    rcases hx' with hx' | (hx' | hx') | hx'
    · cases h : thaiCType.isLdVowel x with
      | false => rfl
      | true => have := thaiCType_ok.ld x h; have := (hon.cons x hx').2.1; omega
    · exact hpc.2 x (by simp [hx'])
    · exact (hmc x hx').2.2
    · exact hpc.2 x (by simp [hx'])

/-- Every simple syllable with a final consonant, with or without tone mark, is read as such. (A cluster with "ว" needs
a written vowel, and a two-letter onset in "ร" does not go before "ร".) -/
theorem C49_closed (hw : fromBytes word = .ok w) (hd : p.exceptDict = none)
    (hb : ∀ b ∈ findBreaks w p.thBrk, b ≤ 0 ∨ b = w.length) (hon : OnsetText on snd cls sec)
    (hpat : pat ∈ closedPatterns) (hm : Marked mk m) (hmk : pat.markable = false → mk = [] ∧ m = .SAMAN) {x : Nat}
    {f : EndConsClass} (hx : IsConsonant x) (hxf : x ∈ finalLetters f) (hf : f ≠ .NONE) (hex : x ∉ pat.excl)
    (hwa : pat.vowel = VW.O → sec ≠ SC.WA)
    (hro : on.length = 2 → on[1]? = some ch!"ร" → (pat.sign ++ mk ++ pat.tail ++ [x]).head? ≠ some ch!"ร")
    (hword : w = pat.word on mk [x]) :
    ∃ d ss s, p.parseWord thaiCType word = .ok d ∧ PronunDAG.sylStrings d 0 = .ok ss ∧ [s] ∈ ss ∧
      ceq s ⟨snd, sec, pat.vowel, f, spokenTone cls pat.vowel f m, [], w.length⟩ = true ∧ s.endPos = w.length := by
  have hxx := cons_of hx
  have hpc := pattern_chars pat (List.mem_append_right _ hpat)
  have hmc := marked_chars hm
  have hlen : w.length = pat.lead.length + on.length + pat.sign.length + mk.length + pat.tail.length + 1 := by
    rw [hword]; simp [Pattern.word]; omega
  have P : Parts pat.lead on pat.sign mk (pat.tail ++ [x]) w w.length (pat.lead.length + on.length)
      (pat.lead.length + on.length + pat.sign.length + mk.length) m :=
    ⟨by rw [hword]; simp [Pattern.word], rfl, rfl, by simp; omega, hm⟩
  have hj : on.length = 2 → on[1]? = some ch!"ร" → ¬ At w w.length (pat.lead.length + on.length) ch!"ร" := by
    intro h2 h1 h
    have h3 : w[pat.lead.length + on.length]? = (pat.sign ++ mk ++ pat.tail ++ [x])[0]? := by
      rw [hword, Pattern.word]
      simp only [List.append_assoc]
      rw [List.getElem?_append_right (by omega), List.getElem?_append_right (by omega)]
      congr 1
      omega
    exact hro h2 h1 (by rw [List.head?_eq_getElem?, ← h3, h.2])
  have hs := closed_spelled (onset_text hon rfl (fun n d => P.o) hj) hpat hxx hxf hf hex hmk hwa hon.length P
  have ho := hon.length
  refine one_syllable hw hd hb (by omega) ?_ ?_ rfl rfl hs
  · intro y hy
    rw [hword, Pattern.word] at hy
    simp only [List.mem_append, List.mem_singleton] at hy
    rcases hy with ((((hy | hy) | hy) | hy) | hy) | rfl
    · exact hpc.1 y (by simp [hy])
    · have := hon.cons y hy
      exact ⟨by have := this.1; omega, .inl (cons_of this)⟩
    · exact hpc.1 y (by simp [hy])
    · exact ⟨(hmc y hy).1, .inr (.inr (.inl (hmc y hy).2.1))⟩
    · exact hpc.1 y (by simp [hy])
    · exact ⟨by have := hx.1; omega, .inl hxx⟩
  · intro y hy
    rw [hword, Pattern.word, List.getLast?_append_of_ne_nil _ (by simp)] at hy
    obtain rfl : x = y := by simpa using hy
    cases h : thaiCType.isLdVowel x with
    | false => rfl
    | true => have := thaiCType_ok.ld x h; have := hx.2.1; omega

/-- "ข้าว": ข, ◌า, a mark and a final; "ปลา": a cluster; "หมู": leading ห. -/
example : (∃ pat ∈ closedPatterns, pat.vowel = VW.AA ∧ u!"ข้าว" = pat.word u!"ข" u!"้" [ch!"ว"]) ∧
    Marked u!"้" .THO ∧ OnsetText u!"ข" .KHA .HIGH SC.NONE ∧ ch!"ว" ∈ finalLetters .KOEW ∧
    fromBytes b!"ข้าว" = .ok u!"ข้าว" ∧ spokenTone .HIGH VW.AA .KOEW .THO = .THO ∧
    (∃ pat ∈ openPatterns, pat.vowel = VW.AA ∧ u!"ปลา" = pat.word u!"ปล" [] []) ∧ OnsetText u!"ปล" .PA .MID SC.LA ∧
    (∃ pat ∈ openPatterns, pat.vowel = VW.UU ∧ u!"หมู" = pat.word u!"หม" [] []) ∧ OnsetText u!"หม" .MA .HIGH SC.NONE := by
  refine ⟨by decide, .inr ⟨ch!"้", by decide, rfl⟩, .inl ⟨_, rfl, by decide⟩, by decide, by decide +kernel, by decide +kernel,
    by decide, .inr (.inl ⟨_, _, u!"กขคบปผพฟ", rfl, by decide⟩), by decide, .inr (.inr (.inl ⟨_, rfl, by decide⟩))⟩

/-- The final "ร" after a bare onset other than "ร" is read with long "o": "พร", "ศร". -/
theorem C49_final_ro (hon : OnsetText on snd cls sec) (hne : snd ≠ .RA) (hro : on[1]? ≠ some ch!"ร")
    (hw : fromBytes word = .ok (on ++ u!"ร")) (hd : p.exceptDict = none)
    (hb : ∀ b ∈ findBreaks (on ++ u!"ร") p.thBrk, b ≤ 0 ∨ b = (on ++ u!"ร").length) :
    ∃ d ss s, p.parseWord thaiCType word = .ok d ∧ PronunDAG.sylStrings d 0 = .ok ss ∧ [s] ∈ ss ∧
      ceq s ⟨snd, sec, VW.AUU, .KON, spokenTone cls VW.AUU .KON .SAMAN, [], (on ++ u!"ร").length⟩ = true ∧
      s.endPos = (on ++ u!"ร").length := by
  have ho := hon.length
  have P : Parts [] on [] [] u!"ร" (on ++ u!"ร") (on ++ u!"ร").length on.length on.length .SAMAN :=
    ⟨by simp, by simp, by simp, by simp, .inl ⟨rfl, rfl⟩⟩
  have h0 : OnsetAt thaiCType (on ++ u!"ร") (on ++ u!"ร").length 0 false ⟨on.length, none, snd, cls, sec, none⟩ :=
    onset_text hon (by simp) (fun n d => P.o) fun _ h => absurd h hro
  refine one_syllable (r := ⟨(on ++ u!"ร").length, false, VW.AUU, .KON, .SAMAN⟩) hw hd hb (by simp; omega) ?_ ?_ rfl rfl
    (spelled_cons h0 (by simp) (.inr (.inr (.inr ⟨.SAMAN, on.length,
      P.mark (by intro d h; cases h; decide), .inr (.inr (.inr (.inr (.inr (.inl ⟨P.z (i := 0) rfl, .inl ⟨hne,
        open_end (by simp)⟩⟩)))))⟩))))
  · intro x hx
    simp only [List.mem_append, List.mem_singleton] at hx
    rcases hx with hx | rfl
    · have := hon.cons x hx
      exact ⟨by have := this.1; omega, .inl (cons_of this)⟩
    · exact ⟨by decide, .inl (by decide)⟩
  · intro x hx
    obtain rfl : ch!"ร" = x := by simpa using hx
    decide

example : OnsetText u!"พ" .PHA .LOWP SC.NONE ∧ fromBytes b!"พร" = .ok (u!"พ" ++ u!"ร") ∧
    spokenTone .LOWP VW.AUU .KON .SAMAN = .SAMAN := ⟨.inl ⟨_, rfl, by decide⟩, by decide +kernel, by decide +kernel⟩

end Thpronun
