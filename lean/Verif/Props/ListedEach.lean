import Verif.Lemmas.Enum
import Verif.Lemmas.AnyDict
import Verif.Spec.ListedEach
import Verif.Props.Shipped

/-! # C54: no condition on texts without mixing is too much -/

namespace Thpronun
open Res Spec Enum

/-- The conditions taken apart are the conditions on the text. -/
theorem unmixed_iff {ct : CType} {w : U16Str} {look : List Nat → Option Str} {brk : List Int} :
    Unmixed ct w look brk ↔ ∀ P ∈ unmixedClauses ct w look brk, P := by
  simp only [unmixedClauses, List.forall_mem_cons]
  exact ⟨fun u => ⟨u.dot, u.words, u.bori, u.jora, u.link, fun _ h => by cases h⟩,
    fun ⟨h1, h2, h3, h4, h5, _⟩ => ⟨h1, h2, h3, h4, h5⟩⟩

private def dictOf (es : List (U16Str × Str)) : Dict := ⟨some (bankFor es).1, some ((bankFor es).2 ++ [])⟩

/-- The pronunciations with these entries. -/
private def prons (es : List (U16Str × Str)) (w : U16Str) : Option (List (List Syl)) :=
  match parseU16Fuel thaiCType w 60 (some (dictOf es)) [] with
  | .ok d => match PronunDAG.sylStrings d 0 with
    | .ok ss => some ss
    | _ => none
  | _ => none

private theorem prons_spec {es : List (U16Str × Str)} {w : U16Str} {ss : List (List Syl)} (h : prons es w = some ss) :
    ∃ d, parseU16 thaiCType w (some (dictOf es)) [] = .ok d ∧ PronunDAG.sylStrings d 0 = .ok ss := by
  unfold prons at h
  split at h <;> try cases h
  rename_i d h3
  split at h <;> try cases h
  rename_i h4
  exact ⟨d, by rw [parseU16_fuel (n := 60) (by rw [h3]; simp), h3], h4⟩

/-- Some listed pronunciation is not one of a reading. -/
private def mixes (es : List (U16Str × Str)) (w : U16Str) : Bool :=
  match prons es w with
  | some ss => ss.any fun s => (ends thaiCType w (fun v => es.lookup v) w.length ⟨0, false, []⟩).all fun c => !isPron s c.edges
  | none => false

/-- The conditions by evaluation, the last one by `Sparse`. -/
private def unmixedChecks (es : List (U16Str × Str)) (w : U16Str) : List Bool :=
  [ !decide (ch!"." ∈ w),
    es.all fun e => match SylString.makeSylStrings e.2 with | .ok strs => strs.all fun str => decide (str.length = 1) | _ => true,
    !decide (u!"บริ" <:+: w),
    !decide (u!"จระ" <:+: w),
    (List.range w.length).all fun i => decide (i = 0) || !(has w i thaiCType.isCons && has w (i + 1) thaiCType.isCons &&
      has w (i + 2) fun n => decide (n ∈ linkVowels) || thaiCType.isCons n) ]

private theorem unmixedChecks_sound (es : List (U16Str × Str)) (w : U16Str) :
    List.Forall₂ (fun b P => b = true → P) (unmixedChecks es w) (unmixedClauses thaiCType w (fun v => es.lookup v) []) := by
  unfold unmixedChecks unmixedClauses
  refine .cons (fun h => by simpa using h) <| .cons (fun h p q data strs str hl hd hs => ?_) <| .cons (fun h => by simpa using h) <|
    .cons (fun h => by simpa using h) <| .cons (fun h => sparse_link thaiCType_ok fun i c d n hi h1 h2 h3 h4 h5 => ?_) .nil
  · obtain ⟨l1, l2, hes, -⟩ := List.lookup_eq_some_iff.mp hl
    have := List.all_eq_true.mp h (piece w p q, data) (by rw [hes]; simp)
    simp only [(makeSylStrings_iff _ _).mpr hd, List.all_eq_true, decide_eq_true_eq] at this
    exact this str hs
  · have := List.all_eq_true.mp h i (List.mem_range.mpr (List.getElem?_eq_some_iff.mp h1).1)
    rw [has_of h1, has_of h3, has_of h5, h2, h4, decide_eq_false (by omega)] at this
    simpa using this

/-- A text and dictionary entries for each condition. -/
private def unmixedWitness : List (List (U16Str × Str) × U16Str) :=
  [ ([(u!".", b!"k_a_1@1"), (u!".ก", b!"k_a_1@2"), (u!"ข.", b!"k_a_1@2")], u!".กข."),
    ([(u!"กามา", b!"k_A_0@2,m_A_0@4;k_a_1@2,m_a_3@4")], u!"กามา"), ([], u!"บริกา"), ([], u!"จระกา"), ([], u!"ราคลา") ]

/-- Whether the data goes forward up to `n`. -/
private def goodData (n : Nat) (s : Str) : Bool :=
  match SylString.makeSylStrings s with
  | .ok strs => strs.all fun str => str.all (fun s => decide (ValidSyl s)) && decide (Forward 0 n str)
  | _ => false

/-- None of the conditions can be left out: for each of them, some text that meets all others, with a good dictionary, has a
pronunciation listed that is not one of a reading. -/
theorem C54_each : ∀ k < 5, ∃ w dict look d ss s,
    (∀ (j : Nat) P, j ≠ k → (unmixedClauses thaiCType w look [])[j]? = some P → P) ∧
    Holds (some dict) look ∧ GoodLook look ∧ parseU16 thaiCType w (some dict) [] = .ok d ∧
    PronunDAG.sylStrings d 0 = .ok ss ∧ s ∈ ss ∧ ¬ ∃ es, RuleReading thaiCType w look [] es ∧ IsPron s es := by
  intro k hk
  have H : ∀ k : Fin 5, ∀ x ∈ (unmixedWitness[k.val]?).toList, (∀ j < 5, j ≠ k.val → (unmixedChecks x.1 x.2)[j]? = some true) ∧
      mixes x.1 x.2 = true ∧ (∀ c ∈ x.2, isThaiTokenChar thaiCType c = true) ∧
      (∀ e ∈ x.1, 0 ∉ e.2 ∧ goodData e.1.length e.2 = true) := by decide +kernel
  have hx : unmixedWitness[k]? = some (unmixedWitness[k]'(by exact hk)) := List.getElem?_eq_getElem _
  generalize unmixedWitness[k]'(by exact hk) = x at hx
  obtain ⟨es, w⟩ := x
  obtain ⟨c, g, ht, hgood⟩ := H ⟨k, hk⟩ (es, w) (by simp [hx])
  dsimp only at c g ht hgood
  unfold mixes at g
  split at g
  · rename_i ss e1
    obtain ⟨d, p1, p2⟩ := prons_spec e1
    obtain ⟨s, hs, hs'⟩ := List.any_eq_true.mp g
    refine ⟨w, dictOf es, fun v => es.lookup v, d, ss, s, fun j P hj hP => ?_, fun text pos hp => ?_, fun v data hv => ?_,
      p1, p2, hs, not_reading thaiCType_ok (fun i hi => ⟨w[i], List.getElem?_eq_getElem hi, ht _ (List.getElem_mem hi)⟩) hs'⟩
    · have hF := unmixedChecks_sound es w
      have hj' : j < 5 := (List.getElem?_eq_some_iff.mp hP).1
      obtain ⟨hl, he⟩ := List.forall₂_iff_get.mp hF
      obtain ⟨i1, i2⟩ := List.getElem?_eq_some_iff.mp (c j hj' hj)
      obtain ⟨k1, k2⟩ := List.getElem?_eq_some_iff.mp hP
      have := he j i1 k1
      simp only [List.get_eq_getElem] at this
      rw [i2, k2] at this
      exact this rfl
    · have := bankFor_look es (fun e he => (hgood e he).1) []
      simpa [Match.new, prefixMatches, dictOf] using reports _ _ this text pos 0 hp
    · have hm : (v, data) ∈ es := by
        obtain ⟨l1, l2, rfl, -⟩ := List.lookup_eq_some_iff.mp hv
        simp
      have := (hgood _ hm).2
      unfold goodData at this
      split at this
      · rename_i strs hst
        refine ⟨strs, hst, fun str hstr => ?_⟩
        have := List.all_eq_true.mp this str hstr
        simp only [Bool.and_eq_true, List.all_eq_true, decide_eq_true_eq] at this
        exact this
      · cases this
  · cases g

end Thpronun
