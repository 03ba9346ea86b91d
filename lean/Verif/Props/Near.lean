import Verif.Lemmas.Near
import Verif.Lemmas.Used
import Verif.Props.Listed
import Verif.Props.Shipped

/-! # Property C99: a reading depends on four characters behind it -/

namespace Thpronun
open Res Spec Shipped

variable {ct : CType} {w w' : U16Str} {look : List Nat → Option Str} {brk brk' : List Int} {n N : Nat} {p : Parser}
  {word word' : Str} {d d' : PronunDAG} {ss ss' : List (List Syl)}

/-- How a text is read up to some position depends only on the text up to four characters behind it (or as many as the
longest dictionary word has): texts that begin alike have the same partial readings. -/
theorem C99_readings (S : SameStart w w' brk brk' n) (hs : Short N look) (hN : 4 ≤ N) (c : Config) (hc : c.pos + N ≤ n) :
    RuleDeriv ct w look brk c ↔ RuleDeriv ct w' look brk' c :=
  ⟨fun h => Near.deriv S hs hN h hc, fun h => Near.deriv (Near.symm S) hs hN h hc⟩

/-- If two words begin alike, a pronunciation of the one can be continued like one of the other: when both go through the
node `a` at least four characters (or the length of the longest dictionary word) before the end of the common part, the
beginning of the one and the rest of the other are listed too. -/
theorem C99 (hct : ct.Ok) (hw : fromBytes word = .ok w) (hw' : fromBytes word' = .ok w') (hd : Holds p.exceptDict look)
    (hg : GoodLook look) (S : SameStart w w' (findBreaks w p.thBrk) (findBreaks w' p.thBrk) n) (hs : Short N look)
    (hN : 4 ≤ N) (hu : Unmixed ct w look (findBreaks w p.thBrk)) (hu' : Unmixed ct w' look (findBreaks w' p.thBrk))
    (h : p.parseWord ct word = .ok d) (h' : p.parseWord ct word' = .ok d') (hl : PronunDAG.sylStrings d 0 = .ok ss)
    (hl' : PronunDAG.sylStrings d' 0 = .ok ss') {s1 s2 s1' s2' : List Syl} (hm : s1 ++ s2 ∈ ss) (hm' : s1' ++ s2' ∈ ss')
    {a : Nat} (ha : nodeAfter 0 s1 = a) (ha' : nodeAfter 0 s1' = a) (hn : a + N ≤ n) :
    ∃ s ∈ ss', SamePron s (s1 ++ s2') := by
  have hlong := S.long
  have hlong' := S.long'
  have hne : w ≠ [] := by rintro rfl; simp at hlong; omega
  have hne' : w' ≠ [] := by rintro rfl; simp at hlong'; omega
  obtain ⟨l, k1, k2, -⟩ := C54_unmixed hct hw hd hg hne h hu
  rw [hl] at k1; cases k1
  obtain ⟨es, ⟨c, hc, -, rfl⟩, he⟩ := k2 _ hm
  obtain ⟨e1, e2, he12, g1, g2⟩ := Near.isPron_split he
  obtain ⟨c1, m1, rfl, m3⟩ := Near.cut hct hg hu hc e1 e2 he12 a (by rw [← Near.isPron_end g1, ha])
  have m1' := Near.deriv S hs hN m1 (by omega)
  obtain ⟨l', k1', k2', -⟩ := C54_exact hct hw' hd hg hne' h'
  rw [hl'] at k1'; cases k1'
  have hr := Near.route_after (k2' _ hm')
  rw [ha', ← m3] at hr
  obtain ⟨es', r1, r2⟩ := route_reading hct hg hu' _ s2' c1 (Nat.le_refl _) m1' hr
  obtain ⟨l', k1', -, k3', -⟩ := C54_unmixed hct hw' hd hg hne' h' hu'
  rw [hl'] at k1'; cases k1'
  obtain ⟨s, hs, hp⟩ := k3' _ r1
  refine ⟨s, hs, ?_⟩
  have hq := Near.isPron_append g1 r2
  generalize s1 ++ s2' = x at hq
  generalize c1.edges ++ es' = y at hq hp
  clear hs
  induction hq generalizing s with
  | nil => cases hp; exact .nil
  | cons hx _ ih =>
    cases hp with
    | cons hy hp => exact .cons ⟨LawfulCppEq.trans hy.1 (LawfulCppEq.symm hx.1), hy.2.trans hx.2.symm⟩ (ih _ hp)

/-- The longest word of the shipped dictionary has eleven characters. -/
theorem C99_data : Short 11 (lastData exceptEntries) := by
  have h : ∀ e ∈ exceptEntries, e.word.length ≤ 11 := by decide +kernel
  intro v data hl
  unfold lastData at hl
  obtain ⟨e, he, rfl⟩ := Option.map_eq_some_iff.mp hl
  have hv := List.find?_some he
  obtain rfl := of_decide_eq_true hv
  exact h e (List.mem_reverse.mp (List.mem_of_find?_eq_some he))

/-- Texts without word breaks. -/
theorem sameStart_nil (h : w.take n = w'.take n) (hl : n ≤ w.length) (hl' : n ≤ w'.length) : SameStart w w' [] [] n where
  text := h
  long := hl
  long' := hl'
  inside := fun b hb => by cases hb
  inside' := fun b hb => by cases hb
  breaks := fun p b _ hb => by
    simp only [nextBreak, List.find?_nil, Option.getD_none]
    omega

/-- กามานาดี and กามานาดู begin alike, and meet the other hypotheses. -/
example : SameStart u!"กามานาดี" u!"กามานาดู" [] [] 7 ∧ Short 4 (fun _ => none) ∧
    Unmixed thaiCType u!"กามานาดี" (fun _ => none) [] ∧ Unmixed thaiCType u!"กามานาดู" (fun _ => none) [] := by
  refine ⟨sameStart_nil (by decide) (by decide) (by decide), fun _ _ h => by (cases h), ?_, ?_⟩ <;>
  · refine sparse_unmixed thaiCType_ok (by decide) (fun _ _ _ _ _ h => by cases h) (by decide) (by decide) ?_
    intro i c d n hi h1 h2 h3 h4 h5
    have hl := (List.getElem?_eq_some_iff.mp h5).1
    simp only [List.length_cons, List.length_nil] at hl
    have : i = 1 ∨ i = 2 ∨ i = 3 ∨ i = 4 ∨ i = 5 := by omega
    rcases this with rfl | rfl | rfl | rfl | rfl <;> cases h1 <;> cases h3 <;> first
      | exact absurd h2 (by decide)
      | exact absurd h4 (by decide)

/-- Three characters are not enough: กกกกก can be read as ก up to its second letter, but กกกก., which has the same first
four characters, can not, for it is an abbreviation. -/
theorem C99_tight : ∃ w w' : U16Str, ∃ c : Config, SameStart w w' [] [] 4 ∧ c.pos + 3 ≤ 4 ∧
    RuleDeriv thaiCType w (fun _ => none) [] c ∧ ¬ RuleDeriv thaiCType w' (fun _ => none) [] c := by
  have hl : Letters thaiCType u!"กกกกก" := ⟨by decide, by decide⟩
  have g : (match grammar thaiCType u!"กกกกก" 0 5 false ch!"ก" with
      | .ok ems => decide (∃ em ∈ ems, em.pos = 1)
      | _ => false) = true := by decide +kernel
  split at g
  · rename_i ems hg
    obtain ⟨em, he, hp⟩ := of_decide_eq_true g
    refine ⟨u!"กกกกก", u!"กกกก.", ⟨em.pos, em.linked, [] ++ sylEdges 0 em⟩, sameStart_nil rfl (by decide) (by decide),
      by simp only [hp]; omega, (ruleDeriv_iff thaiCType_ok).mpr (.tail .refl ((hl.step_iff thaiCType_ok).mpr
        ⟨ch!"ก", ems, em, rfl, hg, he, rfl⟩)), ?_⟩
    have tx : ∀ i < 5, TextAt thaiCType u!"กกกก." i := by
      intro i hi
      have : i = 0 ∨ i = 1 ∨ i = 2 ∨ i = 3 ∨ i = 4 := by omega
      rcases this with rfl | rfl | rfl | rfl | rfl <;> exact ⟨_, rfl, by decide⟩
    have tok : ∀ t, TokenTo thaiCType u!"กกกก." [] 0 t → t = 5 := by
      rintro t ⟨-, h2, -, -, h5 | ⟨h5, h6⟩⟩
      · have h5 : (t : Int) = 5 := by simpa [nextBreak] using h5
        omega
      · exact absurd (tx t h5) h6
    have ab : IsAbbr thaiCType u!"กกกก." 0 5 5 := by
      refine ⟨.inl rfl, Nat.le_refl _, .inl ⟨4, Nat.le_refl _, rfl, fun i _ hi => ?_, rfl⟩⟩
      have : i = 0 ∨ i = 1 ∨ i = 2 ∨ i = 3 := by omega
      rcases this with rfl | rfl | rfl | rfl <;> exact ⟨_, rfl, by decide⟩
    have inv : ∀ c, RuleDeriv thaiCType u!"กกกก." (fun _ => none) [] c → c = ⟨0, false, []⟩ ∨ 5 ≤ c.pos := by
      intro c hc
      induction hc with
      | refl => exact .inl rfl
      | tail _ hs ih =>
        right
        rcases ih with rfl | ih
        · cases hs with
          | other h => exact absurd (tx 0 (by decide)) (h.2.2.1 0 (Nat.le_refl _) h.1)
          | word _ h => exact (nomatch h.2.2.1)
          | abbr h1 _ h2 _ =>
            obtain rfl := tok _ h1
            rcases h2.shape with ⟨n, hn, rfl, -, h⟩ | ⟨rfl, h, -⟩
            · have : n = 0 ∨ n = 1 ∨ n = 2 ∨ n = 3 ∨ n = 4 := by omega
              rcases this with rfl | rfl | rfl | rfl | rfl
              all_goals first | exact Nat.le_refl _ | exact absurd h (by decide)
            · cases h
          | syl h1 _ h2 _ => obtain rfl := tok _ h1; exact absurd ab (h2 5)
          | dot _ _ _ h => exact absurd h (by decide)
        · exact absurd (rule_before hs) (Nat.not_lt.mpr ih)
    intro hd
    rcases inv _ hd with h | h
    · have := congrArg Config.pos h
      simp only [hp] at this
      cases this
    · simp only [hp] at h
      omega
  · cases g

private def longLook : List Nat → Option Str := fun v => if v = u!"กากากาม" then some b!"k_a_1@7" else none

/-- The condition on the dictionary is needed: with the word กากากาม in it, กากากาม is not read as กา up to its third
letter, while กากากาน, which differs five characters behind it, is. -/
theorem C99_needed : ∃ (w w' : U16Str) (look : List Nat → Option Str) (c : Config), GoodLook look ∧ SameStart w w' [] [] 6 ∧
    c.pos + 4 ≤ 6 ∧ RuleDeriv thaiCType w look [] c ∧ ¬ RuleDeriv thaiCType w' look [] c := by
  have hl : Letters thaiCType u!"กากากาน" := ⟨by decide, by decide⟩
  have g : (match grammar thaiCType u!"กากากาน" 0 7 false ch!"ก" with
      | .ok ems => decide (∃ em ∈ ems, em.pos = 2)
      | _ => false) = true := by decide +kernel
  split at g
  · rename_i ems hg
    obtain ⟨em, he, hp⟩ := of_decide_eq_true g
    have hr := (rule_iff thaiCType_ok).mpr ((hl.step_iff thaiCType_ok (c := ⟨0, false, []⟩)).mpr ⟨ch!"ก", ems, em, rfl, hg, he, rfl⟩)
    refine ⟨u!"กากากาน", u!"กากากาม", longLook, ⟨em.pos, em.linked, [] ++ sylEdges 0 em⟩, ?_,
      sameStart_nil rfl (by decide) (by decide), by simp only [hp]; omega, ?_, ?_⟩
    · intro v data h
      unfold longLook at h
      split at h
      · rename_i hv
        cases h
        subst hv
        exact ⟨[[⟨.KA, SC.NONE, VW.A, .NONE, .EK, [], 7⟩]], by decide +kernel, by decide +kernel⟩
      · cases h
    · have hno : ∀ t q data, ¬ WordAt thaiCType u!"กากากาน" longLook 0 t q data := by
        rintro t q data ⟨-, hq, h, -⟩
        unfold longLook at h
        split at h
        · rename_i hv
          have : q = 0 ∨ q = 1 ∨ q = 2 ∨ q = 3 ∨ q = 4 ∨ q = 5 ∨ q = 6 ∨ q = 7 := by
            have : (u!"กากากาน").length = 7 := rfl
            omega
          rcases this with rfl | rfl | rfl | rfl | rfl | rfl | rfl | rfl <;> exact absurd hv (by decide)
        · cases h
      refine .tail .refl ?_
      generalize hc : (⟨em.pos, em.linked, [] ++ sylEdges 0 em⟩ : Config) = c at hr ⊢
      cases hr with
      | other h => exact .other h
      | word _ h => exact (nomatch h.2.2.1)
      | abbr h1 _ h2 h3 => exact .abbr h1 (hno _) h2 h3
      | syl h1 _ h2 h3 => exact .syl h1 (hno _) h2 h3
      | dot h1 _ h2 h3 => exact .dot h1 (hno _) h2 h3
    · have tx : ∀ i < 7, TextAt thaiCType u!"กากากาม" i := by
        intro i hi
        have : i = 0 ∨ i = 1 ∨ i = 2 ∨ i = 3 ∨ i = 4 ∨ i = 5 ∨ i = 6 := by omega
        rcases this with rfl | rfl | rfl | rfl | rfl | rfl | rfl <;> exact ⟨_, rfl, by decide⟩
      have tok : ∀ t, TokenTo thaiCType u!"กากากาม" [] 0 t → t = 7 := by
        rintro t ⟨-, h2, -, -, h5 | ⟨h5, h6⟩⟩
        · have h5 : (t : Int) = 7 := by simpa [nextBreak] using h5
          omega
        · exact absurd (tx t h5) h6
      have wd : WordAt thaiCType u!"กากากาม" longLook 0 7 7 b!"k_a_1@7" :=
        ⟨by decide, by decide, by decide, by decide, .inl rfl⟩
      have inv : ∀ c, RuleDeriv thaiCType u!"กากากาม" longLook [] c → c = ⟨0, false, []⟩ ∨ 7 ≤ c.pos := by
        intro c hc
        induction hc with
        | refl => exact .inl rfl
        | tail _ hs ih =>
          right
          rcases ih with rfl | ih
          · cases hs with
            | other h => exact absurd (tx 0 (by decide)) (h.2.2.1 0 (Nat.le_refl _) h.1)
            | @word _ _ _ t q _ _ _ h1 h =>
              have hq := h.2.2.1
              unfold longLook at hq
              split at hq
              · rename_i hv
                have := congrArg List.length hv
                simp only [piece, List.length_take, List.length_drop] at this
                have e : (u!"กากากาม").length = 7 := rfl
                simp only
                omega
              · cases hq
            | abbr h1 h _ _ => obtain rfl := tok _ h1; exact absurd wd (h _ _)
            | syl h1 h _ _ => obtain rfl := tok _ h1; exact absurd wd (h _ _)
            | dot h1 h _ _ => obtain rfl := tok _ h1; exact absurd wd (h _ _)
          · exact absurd (rule_before hs) (Nat.not_lt.mpr ih)
      intro hd
      rcases inv _ hd with h | h
      · have := congrArg Config.pos h
        simp only [hp] at this
        cases this
      · simp only [hp] at h
        omega
  · cases g

end Thpronun
