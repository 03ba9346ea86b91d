import Verif.Lemmas.Desc
import Verif.Props.Output
import Verif.Spec.Parser

/-! # The notation of dictionary data: C06, C08 -/

namespace Thpronun
open Res Spec

/-- The number after `@` in the text of a valid syllable is its end position. -/
theorem C06_number (s : Syl) (h : ValidSyl s) (hi : IsInt s.endPos) :
    ∃ c0 c1 c2 c3 c4 n, rawSyl s = .ok (c0 :: c1 :: c2 :: c3 :: c4 :: ch!"@" :: n) ∧ NumberIs n s.endPos :=
  ⟨_, _, _, _, _, _, rawSyl_valid s h, (stoi_iff _ _).mp (stoi_toString _ hi)⟩

/-- The syllable read from a description is the one described; all other descriptions are refused. -/
theorem C08_exact (desc : Str) (dflt : Int) (s : Syl) : sylOfDesc desc dflt = .ok s ↔ SylIs desc dflt s :=
  sylOfDesc_iff desc dflt s

/-- Dictionary data is read as the alternatives it describes; all other data is refused. -/
theorem C08_data (data : Str) (strs : List SylString) : SylString.makeSylStrings data = .ok strs ↔ DataIs data strs :=
  makeSylStrings_iff data strs

/-- The condition on dictionaries used by the theorems about the parser, in terms of the format alone. -/
theorem C08_look (look : List Nat → Option Str) :
    (Readable look ↔ ∀ v data, look v = some data → ∃ strs, DataIs data strs) ∧
    (GoodLook look ↔ ∀ v data, look v = some data → ∃ strs, DataIs data strs ∧
      ∀ str ∈ strs, (∀ s ∈ str, ValidSyl s) ∧ Forward 0 v.length str) := by
  unfold Readable GoodLook
  simp only [makeSylStrings_iff]
  trivial

/-- Exactly which descriptions give printable syllables: those with the codes of a cluster and of a vowel and without
placeholders, and the description of a blank. -/
theorem C08_printable_exact (desc : Str) (hb : ∀ b ∈ desc, b < 256) (dflt : Int) (s : Syl)
    (h : sylOfDesc desc dflt = .ok s) :
    (∃ text, rawSyl s = .ok text) ↔
      (desc[0]? ≠ some ch!"*" ∧ (∃ c ∈ desc[1]?, c ∈ b!"_rlw") ∧ (∃ c ∈ desc[2]?, c ∈ b!"aAiIvVuUeExXyYzZtToOcCwW") ∧
        desc[4]? ≠ some ch!"*") ∨ desc.take 5 = b!"*_*_*" := by
  obtain ⟨hl, ⟨c0, h0, k0⟩, ⟨c1, h1, k1⟩, ⟨c2, h2, k2⟩, ⟨c3, h3, k3⟩, ⟨c4, h4, k4⟩, -⟩ := (sylOfDesc_iff desc dflt s).mp h
  have b1 := hb c1 (List.mem_of_getElem? h1)
  have b2 := hb c2 (List.mem_of_getElem? h2)
  have t1 : ∀ c < 256, (charValue c ∈ Spec.clusters ↔ c ∈ b!"_rlw") ∧ (charValue c ∈ vowels ↔ c ∈ b!"aAiIvVuUeExXyYzZtToOcCwW") ∧
      (charValue c = ch!"_" ↔ c = ch!"_") ∧ (charValue c = ch!"*" ↔ c = ch!"*") := by decide +kernel
  have t0 : ∀ x ∈ initialCodes, x.2 = .INVALID ↔ x.1 = ch!"*" := by decide
  have t3 : ∀ x ∈ finalCodes, x.2 = .NONE ↔ x.1 = ch!"_" := by decide
  have t4 : ∀ x ∈ toneCodes, x.2 = .INVALID ↔ x.1 = ch!"*" := by decide
  have i0 := t0 _ k0
  have i3 := t3 _ k3
  have i4 := t4 _ k4
  simp only at i0 i3 i4
  have htake : desc.take 5 = [c0, c1, c2, c3, c4] := by
    match desc, h0, h1, h2, h3, h4 with
    | a :: b :: c :: d :: e :: r, h0, h1, h2, h3, h4 => simp_all
  rw [C24_raw_iff, htake]
  simp only [hl, ne_eq, not_true_eq_false, false_and, or_false, h0, h1, h2, h4, Option.mem_some_iff, exists_eq_left',
    Option.some.injEq, List.cons.injEq, and_true]
  have hv : ValidSyl s ↔ s.iCons1 ≠ .INVALID ∧ s.iCons2 ∈ Spec.clusters ∧ s.vowel ∈ vowels ∧ s.tone ≠ .INVALID :=
    ⟨fun h => ⟨h.iCons1, h.iCons2, h.vowel, h.tone⟩, fun ⟨a, b, c, d⟩ => ⟨hl, a, b, c, d⟩⟩
  have hB : IsBlank s ↔ s.iCons1 = .INVALID ∧ s.iCons2 = ch!"_" ∧ s.vowel = ch!"*" ∧ s.eCons = .NONE ∧ s.tone = .INVALID := by
    unfold IsBlank; simp only [hl, true_and]
  rw [hv, hB, k1, k2, (t1 c1 b1).1, (t1 c2 b2).2.1, (t1 c1 b1).2.2.1, (t1 c2 b2).2.2.2]
  simp only [ne_eq, i0, i3, i4]

/-- Two alternatives of the shipped format; the second one is given without end position. -/
example : DataIs b!"P_et3@3,J_a_1@-306;k_A_0" [[⟨.PHA, SC.NONE, VW.E, .KOT, .TRI, [], 3⟩, ⟨.CHA, SC.NONE, VW.A, .NONE, .EK, [], -306⟩],
    [⟨.KA, SC.NONE, VW.AA, .NONE, .SAMAN, [], -1⟩]] := (C08_data _ _).mp (by decide +kernel)

example : ∃ s, sylOfDesc b!"*_*_*" = .ok s ∧ rawSyl s = .ok b!" " := ⟨_, rfl, by decide +kernel⟩

end Thpronun
