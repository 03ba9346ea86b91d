import Verif.Props.Parser
import Verif.Lemmas.JsonWord

/-! # Properties C21 and C22, exactly: when the JSON output can be read back

The output writes texts without escapes. It is read back as what it should denote exactly if no text needs one; for the
words of the parser: exactly if the word has no quotation mark, backslash or control character. -/

namespace Thpronun
open Res Spec DAG

private def kaa : Syl := ⟨.KA, SC.NONE, VW.AA, .NONE, .SAMAN, [], 2⟩

/-- A list of pronunciations is read back exactly if no text needs escapes. -/
theorem C21_exact (out : SylOutput) (txt : Syl → Str) (l : List SylString) (hl : l ≠ []) (hne : ∀ s ∈ l, s ≠ [])
    (h : ∀ s ∈ l, ∀ x ∈ s, out x = .ok (txt x)) :
    ∃ t, jsonList out l = .ok t ∧ (readJson t = some (jsonOf txt l) ↔ ∀ s ∈ l, ∀ x ∈ s, JsonSafe (txt x)) := by
  obtain ⟨t, ht, he⟩ := (Res.sat_iff _ _).mp (exactly_bracket (jsonStr out)
    (fun s => J.arr (s.map fun x => J.str (txt x))) (fun s => ∀ x ∈ s, JsonSafe (txt x)) l fun s hs =>
      jsonStr_exactly out txt s (hne s hs) (h s hs))
  rw [← jsonList_eq_bracket _ _ hl] at ht
  refine ⟨t, ht, readJson_exactly he, fun hs => ?_⟩
  obtain ⟨t', ht', hr⟩ := C21_json_partial out txt l hl hne fun s hm x hx => ⟨h s hm x hx, hs s hm x hx⟩
  rw [ht] at ht'
  cases ht'
  exact hr

example : (∀ s ∈ [[kaa], [Syl.lit 3 u!"a\"b"]], ∀ x ∈ s, (phoneticSyl x).Sat fun _ => True) ∧
    ¬ JsonSafe b!"(a\"b)" ∧ phoneticSyl (Syl.lit 3 u!"a\"b") = .ok b!"(a\"b)" := by decide

/-- A lattice is read back exactly if no text needs escapes. -/
theorem C22_exact (out : SylOutput) (txt : Syl → Str) (l : PronunLatt)
    (h : ∀ chain ∈ l, ∀ frac ∈ chain, ∀ s ∈ frac.alts, s ≠ [] ∧ ∀ x ∈ s, out x = .ok (txt x)) :
    ∃ t, gjsonLatt out l = .ok t ∧ (readJson t = some (jsonOfLatt txt l) ↔
      ∀ chain ∈ l, ∀ frac ∈ chain, ∀ s ∈ frac.alts, ∀ x ∈ s, JsonSafe (txt x)) := by
  obtain ⟨t, ht, he⟩ := (Res.sat_iff _ _).mp (exactly_bracket _ (fun (chain : PronunChain) =>
      J.arr (chain.map fun frac => .arr (frac.alts.map fun s => .arr (s.map fun x => .str (txt x)))))
    (fun chain => ∀ frac ∈ chain, ∀ s ∈ frac.alts, ∀ x ∈ s, JsonSafe (txt x))
    l fun chain hc => exactly_bracket (fun (frac : PronunFrac) => bracketList (jsonStr out) frac.alts)
      (fun frac => J.arr (frac.alts.map fun s => .arr (s.map fun x => .str (txt x))))
      (fun frac => ∀ s ∈ frac.alts, ∀ x ∈ s, JsonSafe (txt x)) chain
      fun frac hf => exactly_bracket (jsonStr out) (fun s => J.arr (s.map fun x => .str (txt x)))
        (fun s => ∀ x ∈ s, JsonSafe (txt x))
        frac.alts fun s hs => jsonStr_exactly out txt s (h chain hc frac hf s hs).1
          (h chain hc frac hf s hs).2)
  refine ⟨t, ht, readJson_exactly he, fun hs => ?_⟩
  obtain ⟨t', ht', hr⟩ := C22_lattice_partial out txt l fun c hc f hf s hm =>
    ⟨(h c hc f hf s hm).1, fun x hx => ⟨(h c hc f hf s hm).2 x hx, hs c hc f hf s hm x hx⟩⟩
  have ht'' : gjsonLatt out l = .ok t := ht
  rw [ht''] at ht'
  cases ht'
  exact hr

section
variable {ct : CType} {look : List Nat → Option Str} {p : Parser} {word : Str} {w : U16Str} {d : PronunDAG}

/-- A literal whose text needs no escapes is itself safe, in every notation. -/
theorem literal_safe (out : SylOutput) (ho : out ∈ [rawSyl, romanSyl, phoneticSyl, soundexSyl, thaiSyl]) (s : Syl)
    (hg : GoodUtf16 s.literal) (h : JsonSafe (textOf out s)) : JsonSafe s.literal := by
  by_cases hl : s.literal = []
  · rw [hl]; intro b hb; cases hb
  obtain ⟨cs, hc⟩ := hg
  have ht : toBytes s.literal = .ok (cs.flatMap utf8EncodeOne) := by unfold toBytes; rw [hc]
  obtain ⟨h1, h2⟩ := C53_printed s _ hl ht
  rw [← toBytes_safe ht]
  have hmem : ∀ b ∈ cs.flatMap utf8EncodeOne, b ∈ textOf out s := by
    intro b hb
    unfold textOf
    rcases List.mem_cons.mp ho with rfl | ho
    · rw [h2]
      simp only [List.mem_append]
      exact .inl (.inl (.inr hb))
    · rw [h1 out ho]
      simp only [List.mem_append]
      exact .inl (.inr hb)
  exact h.sub hmem

/-- The parsed word has a pronunciation: its JSON output is read back as the listed pronunciations exactly if the text
has no quotation mark, backslash or control character. -/
theorem C21_word (hct : ct.Ok) (hw : fromBytes word = .ok w) (hd : Holds p.exceptDict look) (hg : GoodLook look)
    (h : p.parseWord ct word = .ok d) (hne : d.mFrom ≠ []) (out : SylOutput)
    (ho : out ∈ [rawSyl, romanSyl, phoneticSyl, soundexSyl, thaiSyl]) :
    ∃ ss t, PronunDAG.sylStrings d 0 = .ok ss ∧ jsonDag out d = .ok t ∧
      (readJson t = some (jsonOf (textOf out) ss) ↔ JsonSafe word) := by
  have hp : ∀ e ∈ d.mFrom, out e.val = .ok (textOf out e.val) := fun e he => by
    obtain ⟨t, ht, -⟩ := C39_prints hct hw hd hg h e he out ho
    exact textOf_eq ht
  obtain ⟨hb, ha⟩ := C38_acyclic hct hw hd hg h
  obtain ⟨ps, h1, -, h3⟩ := C15_listing d hb ha
  obtain ⟨t, ht, hr⟩ := C21_exact out (textOf out) (ps.map fun q => q.map fun e => e.val) (by
      intro h0'
      rw [h0'] at h1
      exact hne ((C38_nonempty hct hw hd hg h).mp h1))
    (by
      intro s hs
      obtain ⟨q, hq, rfl⟩ := List.mem_map.mp hs
      cases (h3 q).mp hq <;> simp)
    (by
      intro s hs x hx
      obtain ⟨q, hq, rfl⟩ := List.mem_map.mp hs
      obtain ⟨e, he, rfl⟩ := List.mem_map.mp hx
      exact hp e (mem_of_maxPath ((h3 q).mp hq) e he))
  have hj : jsonDag out d = .ok t := by rw [jsonDag, h1, ok_bind, ht]
  refine ⟨_, t, h1, hj, fun hread => ?_, fun hs => ?_⟩
  · have hsafe := hr.mp hread
    rw [← fromBytes_safe hw]
    have h' := h
    rw [C37_word p word w hw] at h'
    refine parse_literals hct hd h' hne fun e he => ?_
    obtain ⟨q, hq, heq⟩ := edge_on_path hct hg hd h' he
    have := hsafe _ (List.mem_map.mpr ⟨q, (h3 q).mpr hq, rfl⟩) e.val (List.mem_map.mpr ⟨e, heq, rfl⟩)
    rcases (C39_labels hct hw hd hg h e he).1 with hv | ⟨-, hu⟩
    · rw [hv.literal]; intro b hb; cases hb
    · exact literal_safe out ho e.val hu this
  · obtain ⟨ss, t', k1, k2, k3⟩ := (C39_json hct hw hd hg h ((fromBytes_safe hw).mpr hs) out ho).1 hne
    rw [h1] at k1
    cases k1
    rw [hj] at k2
    cases k2
    exact k3

/-- Likewise the grouped JSON output. -/
theorem C22_word (hct : ct.Ok) (hw : fromBytes word = .ok w) (hd : Holds p.exceptDict look) (hg : GoodLook look)
    (h : p.parseWord ct word = .ok d) (hne : d.mFrom ≠ []) (out : SylOutput)
    (ho : out ∈ [rawSyl, romanSyl, phoneticSyl, soundexSyl, thaiSyl]) :
    ∃ f latt t, PronunDAG.fracDAG d = .ok f ∧ FracDAG.lattice f = .ok latt ∧ gjsonDag out d = .ok t ∧
      (readJson t = some (jsonOfLatt (textOf out) latt) ↔ JsonSafe word) := by
  have hp : ∀ e ∈ d.mFrom, out e.val = .ok (textOf out e.val) := fun e he => by
    obtain ⟨t, ht, -⟩ := C39_prints hct hw hd hg h e he out ho
    exact textOf_eq ht
  obtain ⟨hb, ha⟩ := C38_acyclic hct hw hd hg h
  have hroot : ∀ u, ¬ Arrow d u 0 := by
    rintro u ⟨e, he, ht⟩
    obtain ⟨hm, hk⟩ := mem_outEdges.mp he
    obtain ⟨-, p1, p2, -⟩ := C38_edges hct hw hd hg h e hm
    rw [ht] at p2
    have : place 0 = 0 := rfl
    omega
  obtain ⟨l, f, latt, hl, hf, hlatt, hsame⟩ := C17_same_readings d ha hroot
  let P : SylString → Prop := fun s => s ≠ [] ∧ ∀ x ∈ s, out x = .ok (textOf out x) ∧ GoodUtf16 x.literal
  have happ : ∀ a b, P a → P b → P (a ++ b) := fun a b ha hb =>
    ⟨by simp [ha.1], fun x hx => (List.mem_append.mp hx).elim (ha.2 x) (hb.2 x)⟩
  have hP := fracDAG_alts (P := P) happ d fun e he => ⟨by simp, by
    have hu : GoodUtf16 e.val.literal := by
      rcases (C39_labels hct hw hd hg h e he).1 with hv | ⟨-, hu⟩
      · rw [hv.literal]; exact ⟨[], rfl⟩
      · exact hu
    simpa using ⟨hp e he, hu⟩⟩
  rw [hf, Res.satP_ok] at hP
  have hL := lattice_alts happ f hP
  rw [hlatt, Res.satP_ok] at hL
  obtain ⟨t, ht, hr⟩ := C22_exact out (textOf out) latt fun c hc fr hfr s hs =>
    ⟨(hL c hc fr hfr s hs).1, fun x hx => ((hL c hc fr hfr s hs).2 x hx).1⟩
  have hj : gjsonDag out d = .ok t := by simp only [gjsonDag, hf, hlatt, Res.ok_bind, ht]
  refine ⟨f, latt, t, hf, hlatt, hj, fun hread => ?_, fun hs => ?_⟩
  · have hsafe := hr.mp hread
    rw [← fromBytes_safe hw]
    have h' := h
    rw [C37_word p word w hw] at h'
    refine parse_literals hct hd h' hne fun e he => ?_
    obtain ⟨q, hq, heq⟩ := edge_on_path hct hg hd h' he
    obtain ⟨ps, h1, -, h3⟩ := C15_listing d hb ha
    rw [hl] at h1
    cases h1
    have hex : ∃ s ∈ ps.map (fun q => q.map fun e => e.val), SylString.eq s (q.map fun e => e.val) = true :=
      ⟨_, List.mem_map.mpr ⟨q, (h3 q).mpr hq, rfl⟩, SylString.eq_refl _⟩
    obtain ⟨s, hs, hse⟩ := (hsame _).mpr hex
    obtain ⟨x, hx, hxe⟩ := sylString_eq_mem hse (List.mem_map.mpr ⟨e, heq, rfl⟩)
    obtain ⟨c, hc, hsc⟩ := List.mem_flatMap.mp hs
    obtain ⟨fr, hfr, a, ha', hxa⟩ := expand_mem hsc hx
    have hlit : x.literal = e.val.literal := ((Syl.eq_iff _ _).mp hxe).1
    rw [← hlit]
    exact literal_safe out ho x ((hL c hc fr hfr a ha').2 x hxa).2 (hsafe c hc fr hfr a ha' x hxa)
  · obtain ⟨f', latt', t', k1, k2, k3, k4⟩ := (C39_json hct hw hd hg h ((fromBytes_safe hw).mpr hs) out ho).2
    rw [hf] at k1
    cases k1
    rw [hlatt] at k2
    cases k2
    rw [hj] at k3
    cases k3
    exact k4

/-- A quotation mark after a word that is read. -/
example : ∃ d, (Parser.new (fun _ => []) false).parseWord thaiCType b!"กา\"" = .ok d ∧ d.mFrom ≠ [] ∧
    ¬ JsonSafe b!"กา\"" ∧ JsonSafe b!"กา" := by
  obtain ⟨d, hd, h⟩ := parsesTo_spec (n := 100) (w := u!"กา\"") (dict := none) (brk := [])
    (P := fun d => decide (d.mFrom ≠ [])) (by decide +kernel)
  exact ⟨d, hd, of_decide_eq_true h, by decide, by decide⟩

end

end Thpronun
