import Verif.Lemmas.Route

/-! # Texts of several parts: C63 -/

namespace Thpronun
open Res Spec DAG

variable {ct : CType} {u v : U16Str} {bu bv : List Int} {look : List Nat → Option Str} {p : Parser} {a b : Nat}

/-- An abbreviation after an opening parenthesis: "กา" and "ก." both have a pronunciation, "กา(ก." has none. -/
theorem C63_false : ∃ d1 d2 d s1 s2, (Parser.new (fun _ => []) false).parseWord thaiCType b!"กา" = .ok d1 ∧
    (Parser.new (fun _ => []) false).parseWord thaiCType b!"ก." = .ok d2 ∧
    (Parser.new (fun _ => []) false).parseWord thaiCType b!"กา(ก." = .ok d ∧
    PronunDAG.sylStrings d1 0 = .ok s1 ∧ s1.length = 1 ∧ PronunDAG.sylStrings d2 0 = .ok s2 ∧ s2.length = 1 ∧
    PronunDAG.sylStrings d 0 = .ok [] := by
  have get : ∀ {d : PronunDAG} {n : Nat}, (match PronunDAG.sylStrings d 0 with | .ok ss => ss.length == n | _ => false) = true →
      ∃ ss, PronunDAG.sylStrings d 0 = .ok ss ∧ ss.length = n := by
    intro d n h
    cases hs : PronunDAG.sylStrings d 0 with
    | ok ss => rw [hs] at h; exact ⟨ss, rfl, beq_iff_eq.mp h⟩
    | _ => rw [hs] at h; cases h
  obtain ⟨d1, h1, k1⟩ := parsesTo_spec (n := 60) (w := u!"กา") (dict := none) (brk := [])
    (P := fun d => match PronunDAG.sylStrings d 0 with | .ok ss => ss.length == 1 | _ => false) (by decide +kernel)
  obtain ⟨d2, h2, k2⟩ := parsesTo_spec (n := 60) (w := u!"ก.") (dict := none) (brk := [])
    (P := fun d => match PronunDAG.sylStrings d 0 with | .ok ss => ss.length == 1 | _ => false) (by decide +kernel)
  obtain ⟨d, h3, k3⟩ := parsesTo_spec (n := 60) (w := u!"กา(ก.") (dict := none) (brk := [])
    (P := fun d => match PronunDAG.sylStrings d 0 with | .ok ss => ss.length == 0 | _ => false) (by decide +kernel)
  obtain ⟨s1, k1, l1⟩ := get k1
  obtain ⟨s2, k2, l2⟩ := get k2
  obtain ⟨s, k3, l3⟩ := get k3
  rw [List.length_eq_zero_iff.mp l3] at k3
  exact ⟨d1, d2, d, s1, s2, h1, h2, h3, k1, l1, k2, l2, k3⟩

/-- The readings of two texts put together at a `Cut` are the readings of the one followed by the readings of the
other. -/
theorem C63_readings (hct : ct.Ok) (hg : GoodLook look) (C : Cut ct u v bu bv a b) (es : List (Entry Syl)) :
    RuleReading ct (u ++ v) look (joinBreaks u bu bv) es ↔
      ∃ es1 es2, RuleReading ct u look bu es1 ∧ RuleReading ct v look bv es2 ∧ es = es1 ++ es2.map (later u.length) :=
  C.readings hct hg es

/-- If the second text is read without exception, so is the whole, and the pronunciations listed for the whole are
those of the first text followed by those of the second. -/
theorem C63_listed (hct : ct.Ok) (hg : GoodLook look) {dict : Option Dict} (hd : Holds dict look)
    (C : Cut ct u v bu bv a b) (hbv : ∀ x ∈ bv, x ≤ v.length) {d1 d2 : PronunDAG}
    (h1 : parseU16 ct u dict bu = .ok d1) (h2 : parseU16 ct v dict bv = .ok d2) :
    ∃ d s1 s2 s, parseU16 ct (u ++ v) dict (joinBreaks u bu bv) = .ok d ∧ PronunDAG.sylStrings d1 0 = .ok s1 ∧
      PronunDAG.sylStrings d2 0 = .ok s2 ∧ PronunDAG.sylStrings d 0 = .ok s ∧
      SameProns s (product s1 (s2.map (laterSyls u.length))) := by
  have hr : Readable look := fun x data hx => (hg x data hx).imp fun _ h => h.1
  have hb : ∀ x ∈ joinBreaks u bu bv, x ≤ (u ++ v).length := by
    intro x hx
    rw [List.length_append]
    push_cast
    rcases List.mem_append.mp hx with hx | hx
    · have := C.left x hx; omega
    · obtain ⟨y, hy, rfl⟩ := List.mem_map.mp hx
      have := hbv y hy; omega
  rcases parse_ok_or_stuck hct hd (met_of_readable hr) hb with ⟨d, h⟩ | ⟨-, c, hc⟩
  · obtain ⟨s1, s2, s, k⟩ := C.listed hct hg hd h1 h2 h
    exact ⟨d, s1, s2, s, h, k⟩
  · obtain ⟨c2, hc2⟩ := C.stuck_right hct hg hc
    exact absurd h2 (not_ok_of_stuck hct hd hc2)

theorem fromBytes_append {x y : Str} {u v : U16Str} (hx : fromBytes x = .ok u) (hy : fromBytes y = .ok v) :
    fromBytes (x ++ y) = .ok (u ++ v) := by
  obtain ⟨a, ha, rfl, rfl⟩ := fromBytes_ok.mp hx
  obtain ⟨b, hb, rfl, rfl⟩ := fromBytes_ok.mp hy
  exact fromBytes_ok.mpr ⟨a ++ b, fun c hc => (List.mem_append.mp hc).elim (ha c) (hb c), by simp [enc8], by simp [enc16]⟩

/-- Two texts with other characters (a space, punctuation) between them, without word breaking: the pronunciations of
the whole are every pronunciation of the first, the characters between as they are, and every pronunciation of the
second. (Missing: abbreviations after other characters than a space, see `C63_false`.) -/
theorem C63_partial (hct : ct.Ok) (hb : p.thBrk = none) (hd : Holds p.exceptDict look) (hg : GoodLook look)
    {x g y : Str} {s : U16Str} (hx : fromBytes x = .ok u) (hgs : fromBytes g = .ok s) (hy : fromBytes y = .ok v)
    (hu : u.getLast? = some a) (ha : IsText ct a) (hv : v.head? = some b) (hb' : IsText ct b)
    (hs : ∀ c ∈ s, ¬ IsText ct c) (hne : s ≠ [])
    (habbr : s.getLast? = some ch!" " ∨ ∀ t e, TokenTo ct v [] 0 t → ¬ IsAbbr ct v 0 t e) {d1 d2 : PronunDAG}
    (h1 : p.parseWord ct x = .ok d1) (h2 : p.parseWord ct y = .ok d2) :
    ∃ d s1 s2 ss, p.parseWord ct (x ++ g ++ y) = .ok d ∧ PronunDAG.sylStrings d1 0 = .ok s1 ∧
      PronunDAG.sylStrings d2 0 = .ok s2 ∧ PronunDAG.sylStrings d 0 = .ok ss ∧
      SameProns ss (s1.flatMap fun z1 => s2.map fun z2 =>
        z1 ++ plainText (u ++ s).length s :: laterSyls (u ++ s).length z2) := by
  have hbr : ∀ w : U16Str, findBreaks w p.thBrk = [] := fun w => by rw [hb]; rfl
  rw [C37_word p x u hx, hbr] at h1
  rw [C37_word p y v hy, hbr] at h2
  rw [C37_word p _ _ (fromBytes_append (fromBytes_append hx hgs) hy), hbr]
  obtain ⟨c0, hc0⟩ : ∃ c, s.head? = some c := by
    cases s with
    | nil => exact absurd rfl hne
    | cons c s => exact ⟨c, rfl⟩
  obtain ⟨c1, hc1⟩ : ∃ c, s.getLast? = some c := by
    cases hl : s.getLast? with
    | none => exact absurd (List.getLast?_eq_none_iff.mp hl) hne
    | some c => exact ⟨c, rfl⟩
  have n0 := hs c0 (List.mem_of_head? hc0)
  have n1 := hs c1 (List.mem_of_getLast? hc1)
  have C1 : Cut ct u s [] [] a c0 := ⟨hu, hc0, .inl ⟨ha, n0⟩, by simp, by simp,
    fun _ _ _ => by
      cases hcc : ct.isCons c0 with
      | false => rfl
      | true => exact absurd (.inl hcc) n0,
    fun h => absurd h n0⟩
  have C2 : Cut ct (u ++ s) v [] [] c1 b := by
    refine ⟨by rw [List.getLast?_append, hc1]; rfl, hv, .inr (.inl ⟨n1, hb'⟩), by simp, by simp, fun h => absurd h n1, fun _ => ?_⟩
    rcases habbr with h | h
    · rw [hc1] at h; exact .inl (Option.some.inj h)
    · exact .inr (.inr h)
  have hno : ∀ i, ¬ Token ct s i := fun i ⟨c, hc, ht⟩ =>
    hs c (List.mem_of_getElem? hc) (by
      obtain ⟨c', hc', h⟩ := textAt_iff.mpr ⟨c, hc, ht⟩
      rw [hc] at hc'
      cases hc'
      exact h)
  obtain ⟨dg, hdg, kg⟩ := C40_plain s hne hno p.exceptDict []
  obtain ⟨d0, s1, sg, s0, k0, l1, lg, l0, e0⟩ := C63_listed hct hg hd C1 (by simp) h1 hdg
  obtain ⟨d, s0', s2, ss, k, l0', l2, l, e⟩ := C63_listed hct hg hd C2 (by simp) k0 h2
  rw [kg] at lg
  cases lg
  rw [l0] at l0'
  cases l0'
  refine ⟨d, s1, s2, ss, k, l1, l2, l, SameProns.trans e (SameProns.trans (product_same _ e0) ?_)⟩
  have hend : movedEnd u.length ((s.length : Nat) : Int) = (u ++ s).length := by
    rw [Cut.movedEnd_nat, List.length_append, Nat.add_comm]
  have : product (product s1 ([[Syl.lit s.length s]].map (laterSyls u.length))) (s2.map (laterSyls (u ++ s).length)) =
      s1.flatMap fun z1 => s2.map fun z2 => z1 ++ plainText (u ++ s).length s :: laterSyls (u ++ s).length z2 := by
    unfold product
    rw [List.flatMap_assoc]
    refine List.flatMap_congr fun z1 _ => ?_
    simp only [List.map_cons, List.map_nil, List.flatMap_cons, List.flatMap_nil, List.append_nil, List.map_map]
    refine List.map_congr_left fun z2 _ => ?_
    simp only [Function.comp, laterSyls, List.map_cons, List.map_nil, List.append_assoc, List.cons_append, List.nil_append]
    rw [show (Syl.lit (s.length : Nat) s).endPos = ((s.length : Nat) : Int) from rfl, hend]
    rfl
  rw [this]
  exact SameProns.refl _

/-! ## What is printed -/

/-- The notations but the raw one do not show where a syllable ends. -/
theorem text_same {out : SylOutput} (ho : out ∈ [romanSyl, phoneticSyl, soundexSyl, thaiSyl]) {x y : Syl}
    (h : ceq x y = true) : out x = out y := by
  have hb : ceq x Syl.blank = ceq y Syl.blank := by
    rw [Bool.eq_iff_iff]
    exact ⟨fun h' => LawfulCppEq.trans (LawfulCppEq.symm h) h', fun h' => LawfulCppEq.trans h h'⟩
  obtain ⟨hl, hx⟩ := (Syl.eq_iff x y).mp h
  have hi : x.isLiteral = y.isLiteral := by unfold Syl.isLiteral; rw [hl]
  simp only [List.mem_cons, List.not_mem_nil, or_false] at ho
  cases hx' : x.isLiteral with
  | true =>
    have hy' := hi ▸ hx'
    rcases ho with rfl | rfl | rfl | rfl
    · simp only [romanSyl, hb, hx', hy', hl, if_true]
    · simp only [phoneticSyl, hb, hx', hy', hl, if_true]
    · simp only [soundexSyl, hb, hx', hy', hl, if_true]
    · simp only [thaiSyl, hx', hy', hl, if_true]
  | false =>
    obtain ⟨k1, k2, k3, k4, k5⟩ := hx hx'
    have hy' := hi ▸ hx'
    rcases ho with rfl | rfl | rfl | rfl
    · simp only [romanSyl, hb, hx', hy', k1, k2, k3, k4, hl]
    · simp only [phoneticSyl, hb, hx', hy', k1, k2, k3, k4, k5, hl]
    · simp only [soundexSyl, hb, hx', hy', k1, k3, k4, hl]
    · simp only [thaiSyl, hx', hy', k1, k2, k3, k4, k5, hl]

theorem literal_text {out : SylOutput} (ho : out ∈ [romanSyl, phoneticSyl, soundexSyl, thaiSyl]) {s : U16Str} {g : Str}
    (hg : fromBytes g = .ok s) (hne : s ≠ []) (n : Int) : out (plainText n s) = .ok (b!"(" ++ g ++ b!")") := by
  obtain ⟨cs, hcs, rfl, rfl⟩ := fromBytes_ok.mp hg
  have hlit : outputLiteral (enc16 cs) = .ok (b!"(" ++ enc8 cs ++ b!")") := by
    unfold outputLiteral
    rw [toBytes_enc16 hcs]; rfl
  have hl : (plainText n (enc16 cs)).isLiteral = true := by
    unfold Syl.isLiteral plainText
    simpa using hne
  have hb : ceq (plainText n (enc16 cs)) Syl.blank = false := by
    rw [Bool.eq_false_iff]
    intro h
    exact hne ((Syl.eq_iff _ _).mp h).1
  simp only [List.mem_cons, List.not_mem_nil, or_false] at ho
  rcases ho with rfl | rfl | rfl | rfl
  · unfold romanSyl; rw [hb, hl]; exact hlit
  · unfold phoneticSyl; rw [hb, hl]; exact hlit
  · unfold soundexSyl; rw [hb, hl]; exact hlit
  · unfold thaiSyl; simp only [hl, if_true]; exact hlit

theorem joinWith_append (sep : Nat) (a b : List Str) (ha : a ≠ []) (hb : b ≠ []) :
    joinWith sep (a ++ b) = joinWith sep a ++ sep :: joinWith sep b := by
  induction a with
  | nil => exact absurd rfl ha
  | cons x a ih =>
    cases a with
    | nil => rw [List.singleton_append, joinWith_cons _ _ _ hb]; rfl
    | cons y a =>
      rw [List.cons_append, joinWith_cons _ _ _ (by simp), ih (by simp), joinWith_cons _ x (y :: a) (by simp)]
      simp

/-- The lines for the whole (in any order): every line for the first text, the characters between in parentheses, and
every line for the second text, with the delimiter between them. -/
theorem C63_lines (hct : ct.Ok) (hb : p.thBrk = none) (hd : Holds p.exceptDict look) (hg : GoodLook look)
    {x g y : Str} {s : U16Str} (hx : fromBytes x = .ok u) (hgs : fromBytes g = .ok s) (hy : fromBytes y = .ok v)
    (hu : u.getLast? = some a) (ha : IsText ct a) (hv : v.head? = some b) (hb' : IsText ct b)
    (hs : ∀ c ∈ s, ¬ IsText ct c) (hne : s ≠ [])
    (habbr : s.getLast? = some ch!" " ∨ ∀ t e, TokenTo ct v [] 0 t → ¬ IsAbbr ct v 0 t e) {d1 d2 : PronunDAG}
    (h1 : p.parseWord ct x = .ok d1) (h2 : p.parseWord ct y = .ok d2) (out : SylOutput)
    (ho : out ∈ [romanSyl, phoneticSyl, soundexSyl, thaiSyl]) (delim : Byte) :
    ∃ d s1 s2 ss, p.parseWord ct (x ++ g ++ y) = .ok d ∧ PronunDAG.sylStrings d1 0 = .ok s1 ∧
      PronunDAG.sylStrings d2 0 = .ok s2 ∧ PronunDAG.sylStrings d 0 = .ok ss ∧
      (ss.map fun q => joinWith delim (q.map (textOf out))).Perm
        ((s1.map fun q => joinWith delim (q.map (textOf out))).flatMap fun t1 =>
          (s2.map fun q => joinWith delim (q.map (textOf out))).map fun t2 =>
            t1 ++ delim :: b!"(" ++ g ++ b!")" ++ delim :: t2) := by
  obtain ⟨d, s1, s2, ss, k, k1, k2, k3, m, hm, hf⟩ :=
    C63_partial hct hb hd hg hx hgs hy hu ha hv hb' hs hne habbr h1 h2
  have ho' : out ∈ [rawSyl, romanSyl, phoneticSyl, soundexSyl, thaiSyl] := List.mem_cons_of_mem _ ho
  have nonempty : ∀ {z : Str} {w : U16Str} {d : PronunDAG} {ss : List (List Syl)}, fromBytes z = .ok w →
      p.parseWord ct z = .ok d → PronunDAG.sylStrings d 0 = .ok ss → ∀ q ∈ ss, q ≠ [] := by
    intro z w d ss hz h hss q hq
    obtain ⟨hbu, hac⟩ := C38_acyclic hct hz hd hg h
    obtain ⟨ps, e1, -, e3⟩ := C15_listing d hbu hac
    rw [hss] at e1
    cases e1
    obtain ⟨r, hr, rfl⟩ := List.mem_map.mp hq
    cases (e3 r).mp hr <;> simp
  refine ⟨d, s1, s2, ss, k, k1, k2, k3, ?_⟩
  refine (hm.map _).trans ?_
  have htext : ∀ {q q' : List Syl}, SamePron q q' → q.map (textOf out) = q'.map (textOf out) := by
    intro q q' h
    induction h with
    | nil => rfl
    | cons h _ ih =>
      rw [List.map_cons, List.map_cons, ih]
      unfold textOf
      rw [text_same ho h.1]
  have hmap : (m.map fun q => joinWith delim (q.map (textOf out))) = (s1.flatMap fun z1 => s2.map fun z2 =>
      z1 ++ plainText (u ++ s).length s :: laterSyls (u ++ s).length z2).map fun q => joinWith delim (q.map (textOf out)) := by
    clear hm
    generalize (s1.flatMap fun z1 => s2.map fun z2 =>
      z1 ++ plainText (u ++ s).length s :: laterSyls (u ++ s).length z2) = m' at hf ⊢
    induction hf with
    | nil => rfl
    | cons h _ ih => rw [List.map_cons, List.map_cons, ih, htext h]
  rw [hmap, List.map_flatMap, List.flatMap_map]
  refine List.Perm.of_eq (List.flatMap_congr fun z1 hz1 => ?_)
  rw [List.map_map, List.map_map]
  refine List.map_congr_left fun z2 hz2 => ?_
  have n1 := nonempty hx h1 k1 z1 hz1
  have n2 := nonempty hy h2 k2 z2 hz2
  have e2 : (laterSyls (u ++ s).length z2).map (textOf out) = z2.map (textOf out) := by
    unfold laterSyls
    rw [List.map_map]
    refine List.map_congr_left fun q _ => ?_
    simp only [Function.comp]
    unfold textOf
    rw [text_same ho (show ceq { q with endPos := movedEnd (u ++ s).length q.endPos } q = true from LawfulCppEq.refl q)]
  have e3 : textOf out (plainText (u ++ s).length s) = b!"(" ++ g ++ b!")" := by
    unfold textOf
    rw [literal_text ho hgs hne]
  simp only [Function.comp]
  rw [List.map_append, List.map_cons, e2, e3, joinWith_append _ _ _ (by simpa using n1) (by simp),
    joinWith_cons _ _ _ (by simpa using n2)]
  simp

/-- What is printed for the whole: every line of the first text, the characters between in
parentheses, and every line of the second text, with the delimiter between them. -/
theorem C63_printed (hct : ct.Ok) (hb : p.thBrk = none) (hd : Holds p.exceptDict look) (hg : GoodLook look)
    {x g y : Str} {s : U16Str} (hx : fromBytes x = .ok u) (hgs : fromBytes g = .ok s) (hy : fromBytes y = .ok v)
    (hu : u.getLast? = some a) (ha : IsText ct a) (hv : v.head? = some b) (hb' : IsText ct b)
    (hs : ∀ c ∈ s, ¬ IsText ct c) (hne : s ≠ [])
    (habbr : s.getLast? = some ch!" " ∨ ∀ t e, TokenTo ct v [] 0 t → ¬ IsAbbr ct v 0 t e) {d1 d2 : PronunDAG}
    (h1 : p.parseWord ct x = .ok d1) (h2 : p.parseWord ct y = .ok d2) (out : SylOutput)
    (ho : out ∈ [romanSyl, phoneticSyl, soundexSyl, thaiSyl]) (delim : Byte) :
    ∃ (d : PronunDAG) (l1 l2 l : List Str), p.parseWord ct (x ++ g ++ y) = .ok d ∧
      delimDag out delim d1 = .ok (l1.flatMap fun t => t ++ b!"\n") ∧
      delimDag out delim d2 = .ok (l2.flatMap fun t => t ++ b!"\n") ∧
      delimDag out delim d = .ok (l.flatMap fun t => t ++ b!"\n") ∧
      l.Perm (l1.flatMap fun t1 => l2.map fun t2 => t1 ++ delim :: b!"(" ++ g ++ b!")" ++ delim :: t2) := by
  obtain ⟨d, s1, s2, ss, k, k1, k2, k3, hm⟩ := C63_lines hct hb hd hg hx hgs hy hu ha hv hb' hs hne habbr h1 h2 out ho delim
  have ho' : out ∈ [rawSyl, romanSyl, phoneticSyl, soundexSyl, thaiSyl] := List.mem_cons_of_mem _ ho
  have line : ∀ {z : Str} {w : U16Str} {d : PronunDAG} {ss : List (List Syl)}, fromBytes z = .ok w → p.parseWord ct z = .ok d →
      PronunDAG.sylStrings d 0 = .ok ss → delimDag out delim d =
        .ok ((ss.map fun q => joinWith delim (q.map (textOf out))).flatMap fun t => t ++ b!"\n") := by
    intro z w d ss hz h hss
    obtain ⟨ss', e1, e2⟩ := C39_delimited hct hz hd hg h out ho' delim
    rw [hss] at e1
    cases e1
    rw [e2, List.flatMap_map]
  exact ⟨d, _, _, _, k, line hx h1 k1, line hy h2 k2, line (fromBytes_append (fromBytes_append hx hgs) hy) k k3, hm⟩

/-! ## The hypotheses are met -/

/-- "กา กา" -/
example : ∃ d1, (Parser.new (fun _ => []) false).parseWord thaiCType b!"กา" = .ok d1 ∧ d1.mFrom ≠ [] ∧
    (u!"กา").getLast? = some ch!"า" ∧ IsText thaiCType ch!"า" ∧ (u!"กา").head? = some ch!"ก" ∧ IsText thaiCType ch!"ก" ∧
    (∀ c ∈ u!" ", ¬ IsText thaiCType c) ∧ (u!" ").getLast? = some ch!" " ∧ (Parser.new (fun _ => []) false).thBrk = none := by
  obtain ⟨d, hd, h⟩ := parsesTo_spec (n := 10) (w := u!"กา") (dict := none) (brk := [])
    (P := fun d => !d.mFrom.isEmpty) (by decide +kernel)
  refine ⟨d, hd, (by intro h0; rw [h0] at h; cases h), rfl, .inr (.inl rfl), rfl, .inl rfl, ?_, rfl, rfl⟩
  intro c hc
  cases List.mem_singleton.mp hc
  unfold IsText
  decide +kernel

/-- A cut at a word break: "กา|กา". -/
example : Cut thaiCType u!"กา" u!"กา" [2] [] ch!"า" ch!"ก" := by
  refine ⟨rfl, rfl, .inr (.inr ⟨.inr (.inl rfl), .inl rfl, by decide⟩), by decide, by simp,
    fun _ h => (by exact absurd h (by decide)), fun _ => ?_⟩
  refine .inr (.inr fun t e ht h => ?_)
  obtain ⟨-, -, ⟨n, -, -, -, h⟩ | ⟨h1, h2, -⟩⟩ := h
  · rcases n with _ | _ | n
    · cases h
    · cases h
    · simp at h
  · subst h1
    subst h2
    obtain ⟨-, -, -, -, h | ⟨-, h⟩⟩ := ht
    · exact absurd h (by decide)
    · exact h ⟨_, rfl, .inr (.inl rfl)⟩

end Thpronun
