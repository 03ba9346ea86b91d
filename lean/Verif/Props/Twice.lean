import Verif.Lemmas.Twice
import Verif.Props.Concat
import Verif.Props.Listed

/-! # Pronunciations listed twice: C65 -/

namespace Thpronun
open Res Spec DAG

variable {ct : CType} {p : Parser} {word : Str} {w : U16Str} {look : List Nat → Option Str} {d : PronunDAG}

/-- Pronunciations listed for one text differ in a syllable or in where a syllable ends: those equal in the sense of
`==` end a syllable at different positions. (Missing: they may still be equal, see `C65_false`.) -/
theorem C65_partial (hct : ct.Ok) (hw : fromBytes word = .ok w) (hd : Holds p.exceptDict look) (hg : GoodLook look)
    (hne : w ≠ []) (h : p.parseWord ct word = .ok d) :
    ∃ ss, PronunDAG.sylStrings d 0 = .ok ss ∧ ss.Pairwise fun a b => List.Forall₂ (fun x y => ceq x y = true) a b →
      a.map Syl.endPos ≠ b.map Syl.endPos := by
  obtain ⟨ss, h1, -, -, h4⟩ := C54_exact hct hw hd hg hne h
  refine ⟨ss, h1, h4.imp ?_⟩
  intro a b hn hf he
  refine hn ?_
  clear hn
  induction hf with
  | nil => exact .nil
  | cons hx _ ih =>
    obtain ⟨e1, e2⟩ := List.cons.inj he
    exact .cons ⟨hx, e1⟩ (ih e2)

/-- The raw notation shows these positions: no line of it is printed twice. -/
theorem C65_raw (hct : ct.Ok) (hw : fromBytes word = .ok w) (hd : Holds p.exceptDict look) (hg : GoodLook look)
    (hne : w ≠ []) (h : p.parseWord ct word = .ok d) :
    ∃ lines : List Str, delimDag rawSyl ch!"," d = .ok (lines.flatMap fun t => t ++ b!"\n") ∧ lines.Nodup := by
  obtain ⟨ss, h1, h2, -, h4⟩ := C54_exact hct hw hd hg hne h
  obtain ⟨ss', k1, k2⟩ := C39_delimited hct hw hd hg h rawSyl (by simp) ch!","
  rw [h1] at k1
  cases k1
  refine ⟨ss.map fun s => joinWith ch!"," (s.map (textOf rawSyl)), by rw [k2, List.flatMap_map], ?_⟩
  obtain ⟨hb, ha⟩ := C38_acyclic hct hw hd hg h
  obtain ⟨ps, l1, -, l3⟩ := C15_listing d hb ha
  have hT : ∀ s ∈ ss, ∀ x ∈ s, rawSyl x = .ok (textOf rawSyl x) := by
    intro s hs x hx
    rw [h1] at l1
    rw [Res.ok.inj l1] at hs
    obtain ⟨q, hq, rfl⟩ := List.mem_map.mp hs
    obtain ⟨e, he, rfl⟩ := List.mem_map.mp hx
    obtain ⟨t, ht, -⟩ := C39_prints hct hw hd hg h e (mem_of_maxPath ((l3 q).mp hq) e he) rawSyl (by simp)
    exact textOf_eq ht
  have hlen : ((w.length : Nat) : Int) ≠ 0 := by
    have := List.length_pos_of_ne_nil hne
    omega
  refine List.pairwise_map.mpr (List.Pairwise.imp_of_mem ?_ h4)
  intro s t hs ht hst he
  refine hst ?_
  have r1 := h2 s hs
  have r2 := h2 t ht
  refine raw_routes hct hg ch!"," (by unfold NumByte; decide) (textOf rawSyl) _ s t 0 r1 r2 (hT s hs) (hT t ht) ?_
  cases s with
  | nil => exact absurd r1.symm hlen
  | cons x s =>
    cases t with
    | nil => exact absurd r2.symm hlen
    | cons y t =>
      simp only [List.map_cons, joinWith_eq] at he
      simp only [List.map_cons, List.flatMap_cons, List.cons_append, he]

private def haa (e : Int) : Syl := ⟨.HA, SC.NONE, VW.A, .NONE, .EK, [], e⟩
private def ook : Syl := ⟨.A, SC.NONE, VW.O, .KOK, .EK, [], 3⟩

/-- หอก (spear) is listed three times, twice of them as ha-ok: once with ห as a pre-syllable and once as a syllable
of its own. The two are equal and look the same in every notation but the raw one. -/
theorem C65_false : ∃ d ss a b, (Parser.new (fun _ => []) false).parseWord thaiCType b!"หอก" = .ok d ∧
    PronunDAG.sylStrings d 0 = .ok ss ∧ [a, b].Sublist ss ∧ List.Forall₂ (fun x y => ceq x y = true) a b ∧
    (∀ out ∈ [romanSyl, phoneticSyl, soundexSyl, thaiSyl], a.map (textOf out) = b.map (textOf out)) ∧
    delimDag thaiSyl ch!"-" d = .ok b!"หะ-อก\nหอก\nหะ-อก\n" := by
  obtain ⟨d, hd, h⟩ := parsesTo_spec (n := 60) (w := u!"หอก") (dict := none) (brk := [])
    (P := fun d => match PronunDAG.sylStrings d 0 with
      | .ok ss => decide ([[haa (-3), ook], [haa 1, ook]].Sublist ss ∧ delimDag thaiSyl ch!"-" d = .ok b!"หะ-อก\nหอก\nหะ-อก\n")
      | _ => false)
    (by decide +kernel)
  cases hs : PronunDAG.sylStrings d 0 with
  | ok ss =>
    rw [hs] at h
    obtain ⟨h1, h2⟩ := of_decide_eq_true h
    have hab : List.Forall₂ (fun x y => ceq x y = true) [haa (-3), ook] [haa 1, ook] := by
      exact .cons (by decide) (.cons (by decide) .nil)
    refine ⟨d, ss, _, _, hd, hs, h1, hab, fun out ho => ?_, h2⟩
    have e1 : textOf out (haa (-3)) = textOf out (haa 1) := by
      unfold textOf; rw [text_same ho (y := haa 1) (by decide)]
    simp only [List.map_cons, List.map_nil, e1]
  | _ => rw [hs] at h; cases h

/-- The word of `C65_false` meets the hypotheses of the other two theorems. -/
example : ∃ d, (Parser.new (fun _ => []) false).parseWord thaiCType b!"หอก" = .ok d ∧ fromBytes b!"หอก" = .ok u!"หอก" ∧
    Holds (Parser.new (fun _ => []) false).exceptDict (fun _ => none) ∧ GoodLook (fun _ => none) := by
  obtain ⟨d, -, -, -, h, -⟩ := C65_false
  exact ⟨d, h, by decide +kernel, holds_none, goodLook_none⟩

end Thpronun
