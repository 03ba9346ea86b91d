import Verif.Props.Respell
import Verif.Props.Concat
import Verif.Spec.Again

/-! # The printed Thai line as a text: its pieces and their readings -/

namespace Thpronun
open Spec

theorem plain_chars {s : Syl} (h : ValidSyl s) : (∀ x ∈ plain (respelled s), respChar x = true) ∧
    2 ≤ (plain (respelled s)).length := by
  obtain ⟨lead, rest, a, hparts, hlead, -, hac, hcons, hrest, hlong, -⟩ := respelled_parts h
  rw [hparts]
  constructor
  · intro x hx
    simp only [List.mem_append, List.mem_cons] at hx
    rcases hx with hx | rfl | hx
    · rcases hlead with rfl | ⟨y, rfl, hy, -⟩
      · cases hx
      · rw [List.mem_singleton.mp hx]; exact hy
    · exact hac
    · exact (hrest x hx).1
  · have h1 : lead ≠ [] → 1 ≤ lead.length := List.length_pos_iff.mpr
    have h2 : rest ≠ [] → 1 ≤ rest.length := List.length_pos_iff.mpr
    simp only [List.length_append, List.length_cons]
    rcases hlong with h | h
    · have := h1 h; omega
    · have := h2 h; omega

theorem respelling_cons (s : Syl) {r : List Syl} (hr : r ≠ []) :
    respelling (s :: r) = respelled s ++ u!"-" ++ respelling r := by
  cases r with
  | nil => exact absurd rfl hr
  | cons t r => rfl

theorem withHyphens_cons (s : Syl) {r : List Syl} (hr : r ≠ []) :
    withHyphens (s :: r) = s :: plainText 0 u!"-" :: withHyphens r := by
  cases r with
  | nil => exact absurd rfl hr
  | cons t r => rfl

theorem respelling_thai {ss : List Syl} (h : ∀ s ∈ ss, ValidSyl s) : ∀ x ∈ respelling ss, x < 0xd800 := by
  induction ss with
  | nil => intro x hx; cases hx
  | cons s r ih =>
    by_cases hr : r = []
    · subst hr; exact respelled_thai (h s (by simp))
    · rw [respelling_cons s hr]
      intro x hx
      simp only [List.mem_append] at hx
      rcases hx with (hx | hx) | hx
      · exact respelled_thai (h s (by simp)) x hx
      · rw [List.mem_singleton.mp hx]; decide
      · exact ih (fun t ht => h t (by simp [ht])) x hx

/-- The text of the rest begins with a whole syllable: its first two characters are letters or signs, no period. -/
theorem respelling_head {ss : List Syl} (h : ∀ s ∈ ss, ValidSyl s) (hne : ss ≠ []) :
    ∃ a b r, plain (respelling ss) = a :: b :: r ∧ respChar a = true ∧ respChar b = true ∧
      (∀ x ∈ plain (respelling ss), x ≠ ch!".") := by
  cases ss with
  | nil => exact absurd rfl hne
  | cons s r =>
    have hdot : ∀ {l : List Syl}, (∀ s ∈ l, ValidSyl s) → ∀ x ∈ plain (respelling l), x ≠ ch!"." := by
      intro l
      induction l with
      | nil => intro _ x hx; cases hx
      | cons s r ih =>
        intro h
        have h1 : ∀ x ∈ plain (respelled s), x ≠ ch!"." := by
          intro x hx h0
          subst h0
          exact absurd (respChar_no ((plain_chars (h s (by simp))).1 _ hx)).2 (by decide)
        by_cases hr : r = []
        · subst hr; exact h1
        · rw [respelling_cons s hr, plain_append, plain_append]
          intro x hx
          simp only [List.mem_append] at hx
          rcases hx with (hx | hx) | hx
          · exact h1 x hx
          · rw [show plain u!"-" = [ch!"-"] from rfl, List.mem_singleton] at hx
            subst hx
            decide
          · exact ih (fun t ht => h t (by simp [ht])) x hx
    obtain ⟨h1, h2⟩ := plain_chars (h s (by simp))
    have hx : ∃ t, plain (respelling (s :: r)) = plain (respelled s) ++ t := by
      by_cases hr : r = []
      · subst hr; exact ⟨[], by rw [List.append_nil]; rfl⟩
      · rw [respelling_cons s hr, plain_append, plain_append, List.append_assoc]
        exact ⟨_, rfl⟩
    obtain ⟨t, ht⟩ := hx
    have hd := hdot h
    rw [ht] at hd ⊢
    cases hp : plain (respelled s) with
    | nil => rw [hp] at h2; simp at h2
    | cons a q =>
      cases q with
      | nil => rw [hp] at h2; simp at h2
      | cons b q =>
        rw [hp] at h1 hd
        exact ⟨a, b, q ++ t, rfl, h1 a (by simp), h1 b (by simp), hd⟩

/-- No reading of a syllable's respelling contains a hyphen. -/
theorem no_hyphen {p : Parser} {s : Syl} (h : ValidSyl s) (hd : p.exceptDict = none) {word : Str} {d : PronunDAG}
    {ss : List (List Syl)} (hw : fromBytes word = .ok (plain (respelled s))) (hp : p.parseWord thaiCType word = .ok d)
    (hss : PronunDAG.sylStrings d 0 = .ok ss) : ∀ z ∈ ss, z ≠ [] ∧ ∀ x ∈ z, x.literal ≠ u!"-" := by
  have hH : Holds p.exceptDict fun _ => none := hd ▸ holds_none
  obtain ⟨hbu, hac⟩ := C38_acyclic thaiCType_ok hw hH goodLook_none hp
  obtain ⟨ps, e1, -, e3⟩ := C15_listing d hbu hac
  rw [hss] at e1
  cases e1
  intro z hz
  obtain ⟨r, hr, rfl⟩ := List.mem_map.mp hz
  have hm := (e3 r).mp hr
  refine ⟨by cases hm <;> simp, fun x hx hl => ?_⟩
  obtain ⟨e, he, rfl⟩ := List.mem_map.mp hx
  obtain ⟨i, j, -, -, -, hpc, -⟩ := literal_piece thaiCType_ok hw hH goodLook_none hp e (hm.mem he) (by rw [hl]; decide)
  have : ch!"-" ∈ plain (respelled s) := by
    have h0 : ch!"-" ∈ e.val.literal := by rw [hl]; decide
    rw [hpc] at h0
    exact List.mem_of_mem_drop (List.mem_of_mem_take h0)
  exact absurd ((plain_chars h).1 _ this) (by decide)

theorem ceq_trans_iff {a b c : Syl} (h : ceq a b = true) : ceq a c = true ↔ ceq b c = true :=
  ⟨fun h' => LawfulCppEq.trans (LawfulCppEq.symm h) h', fun h' => LawfulCppEq.trans h h'⟩

theorem sameSounds_left {z z' l : List Syl} (h : SameSounds z z') : SameSounds z l ↔ SameSounds z' l := by
  induction h generalizing l with
  | nil => exact Iff.rfl
  | cons h _ ih =>
    cases l with
    | nil => exact ⟨fun h => (by cases h), fun h => (by cases h)⟩
    | cons y l =>
      exact ⟨fun h' => (by cases h' with | cons a b => exact .cons ((ceq_trans_iff h).mp a) (ih.mp b)),
        fun h' => (by cases h' with | cons a b => exact .cons ((ceq_trans_iff h).mpr a) (ih.mpr b))⟩

theorem SameProns.mem_left {l l' : List (List Syl)} (h : SameProns l l') {P : List Syl → Prop}
    (hP : ∀ a b, SamePron a b → (P a ↔ P b)) : (∃ z ∈ l, P z) ↔ ∃ z ∈ l', P z := by
  obtain ⟨m, hm, hf⟩ := h
  have : (∃ z ∈ l, P z) ↔ ∃ z ∈ m, P z := by simp only [hm.mem_iff]
  rw [this]
  clear hm this
  induction hf with
  | nil => exact Iff.rfl
  | cons h _ ih =>
    rw [List.exists_mem_cons_iff, List.exists_mem_cons_iff]
    exact or_congr (hP _ _ h) ih

theorem read_again {p : Parser} (hd : p.exceptDict = none) (hb : p.thBrk = none) {ss : List Syl} (hne : ss ≠ [])
    (h : ∀ s ∈ ss, ValidSyl s) : ∃ d l, p.parseWord thaiCType (enc8 (plain (respelling ss))) = .ok d ∧
      PronunDAG.sylStrings d 0 = .ok l ∧ ((∃ z ∈ l, SameSounds z (withHyphens ss)) ↔ ∀ s ∈ ss, Respellable s) := by
  have hfb : ∀ {l : List Syl}, (∀ s ∈ l, ValidSyl s) →
      fromBytes (enc8 (plain (respelling l))) = .ok (plain (respelling l)) := by
    intro l hl
    have hc : ∀ c ∈ plain (respelling l), c < 0xd800 := fun c hc => respelling_thai hl c (List.mem_filter.mp hc).1
    exact fromBytes_ok.mpr ⟨_, fun c h => isScalar_iff.mpr (.inl (hc c h)), rfl, (enc16_bmp hc).symm⟩
  have hone : ∀ {s : Syl}, ValidSyl s → ∃ d l, p.parseWord thaiCType (enc8 (plain (respelled s))) = .ok d ∧
      PronunDAG.sylStrings d 0 = .ok l ∧ ((∃ x, [x] ∈ l ∧ ceq x s = true) ↔ Respellable s) := by
    intro s hs
    have hf := hfb (l := [s]) (by simpa using hs)
    have hbr : ∀ b ∈ findBreaks (plain (respelled s)) p.thBrk, b ≤ 0 ∨ b = (plain (respelled s)).length := by
      rw [hb]; intro b hb; cases hb
    obtain ⟨d, l, h1, h2, h3⟩ := not_back hs hd hf hbr
    refine ⟨d, l, h1, h2, fun ⟨x, hx, hxs⟩ => h3 x hx hxs, fun hr => ?_⟩
    obtain ⟨d', l', x, k1, k2, k3, k4⟩ := read_back hs hr hd hf hbr
    have e1 := h1.symm.trans k1
    cases e1
    have e2 := h2.symm.trans k2
    cases e2
    exact ⟨x, k3, k4⟩
  induction ss with
  | nil => exact absurd rfl hne
  | cons s r ih =>
    by_cases hr : r = []
    · subst hr
      obtain ⟨d, l, h1, h2, h3⟩ := hone (h s (by simp))
      refine ⟨d, l, h1, h2, ?_⟩
      rw [show (∀ t ∈ [s], Respellable t) ↔ Respellable s by simp, ← h3]
      constructor
      · rintro ⟨z, hz, hs⟩
        obtain ⟨x, rfl, hx⟩ : ∃ x, z = [x] ∧ ceq x s = true := by
          cases hs with
          | cons h t => cases t; exact ⟨_, rfl, h⟩
        exact ⟨x, hz, hx⟩
      · rintro ⟨x, hx, hxs⟩
        exact ⟨[x], hx, .cons hxs .nil⟩
    · have hvr : ∀ t ∈ r, ValidSyl t := fun t ht => h t (by simp [ht])
      have hvs := h s (by simp)
      obtain ⟨d1, l1, p1, q1, r1⟩ := hone hvs
      obtain ⟨d2, l2, p2, q2, r2⟩ := ih hr hvr
      have hH : Holds p.exceptDict fun _ => none := hd ▸ holds_none
      have hf1 : fromBytes (enc8 (plain (respelled s))) = .ok (plain (respelled s)) := hfb (l := [s]) (by simpa using hvs)
      obtain ⟨hc, hl⟩ := plain_chars hvs
      obtain ⟨a, ha⟩ : ∃ a, (plain (respelled s)).getLast? = some a := by
        cases hg : (plain (respelled s)).getLast? with
        | none => rw [List.getLast?_eq_none_iff.mp hg] at hl; simp at hl
        | some a => exact ⟨a, rfl⟩
      obtain ⟨b, b', rest, hbt, hb1, hb2, hdot⟩ := respelling_head hvr hr
      have hdash : ¬ IsText thaiCType ch!"-" := by unfold IsText; decide +kernel
      have habbr : ∀ t e, TokenTo thaiCType (plain (respelling r)) [] 0 t →
          ¬ IsAbbr thaiCType (plain (respelling r)) 0 t e := by
        intro t e ht hab
        obtain ⟨-, -, ⟨n, -, -, -, hn⟩ | ⟨h1, h2, -⟩⟩ := hab
        · exact hdot _ (List.mem_of_getElem? hn) rfl
        · subst h1
          subst h2
          obtain ⟨-, -, -, -, hh | ⟨-, hh⟩⟩ := ht
          · rw [show nextBreak (plain (respelling r)) [] 0 = ((plain (respelling r)).length : Int) from rfl, hbt] at hh
            simp at hh
            omega
          · exact hh ⟨b', by rw [hbt]; rfl, (respChar_no hb2).1⟩
      obtain ⟨d, s1, s2, l, k, k1, k2, k3, k4⟩ := C63_partial thaiCType_ok hb hH goodLook_none hf1
        (g := b!"-") (s := u!"-") (by decide +kernel) (hfb hvr) ha (respChar_no (hc a (List.mem_of_getLast? ha))).1
        (by rw [hbt]; rfl) (respChar_no hb1).1 (by intro c hc; rw [List.mem_singleton.mp hc]; exact hdash) (by decide)
        (.inr habbr) p1 p2
      rw [q1] at k1; cases k1
      rw [q2] at k2; cases k2
      refine ⟨d, l, ?_, k3, ?_⟩
      · rw [respelling_cons s hr, plain_append, plain_append]
        have : enc8 (plain (respelled s) ++ plain u!"-" ++ plain (respelling r)) =
          enc8 (plain (respelled s)) ++ b!"-" ++ enc8 (plain (respelling r)) := by
          simp [enc8, plain, utf8EncodeOne]
        rw [this]
        exact k
      · rw [SameProns.mem_left k4 (P := fun z => SameSounds z (withHyphens (s :: r)))
          (fun a b hab => sameSounds_left (hab.imp fun _ _ h => h.1)), withHyphens_cons s hr,
          List.forall_mem_cons, ← r1, ← r2]
        have hlat : ∀ n z, SameSounds (laterSyls n z) z := by
          intro n z
          unfold laterSyls
          induction z with
          | nil => exact .nil
          | cons x z ih => exact .cons (LawfulCppEq.refl x) ih
        have hlit : ∀ n, ceq (plainText n u!"-") (plainText 0 u!"-") = true := fun n => LawfulCppEq.refl (plainText 0 u!"-")
        constructor
        · rintro ⟨z, hz, hs⟩
          obtain ⟨z1, hz1, hz⟩ := List.mem_flatMap.mp hz
          obtain ⟨z2, hz2, rfl⟩ := List.mem_map.mp hz
          obtain ⟨n1, n2⟩ := no_hyphen hvs hd hf1 p1 q1 z1 hz1
          rcases z1 with _ | ⟨x, _ | ⟨y, z1⟩⟩
          · exact absurd rfl n1
          · obtain ⟨g1, hs⟩ := List.forall₂_cons.mp hs
            obtain ⟨-, hs⟩ := List.forall₂_cons.mp hs
            exact ⟨⟨x, hz1, g1⟩, z2, hz2, (sameSounds_left (hlat _ _)).mp hs⟩
          · exfalso
            obtain ⟨-, hs⟩ := List.forall₂_cons.mp hs
            obtain ⟨hy, -⟩ := List.forall₂_cons.mp hs
            exact n2 y (by simp) ((Syl.eq_iff _ _).mp hy).1
        · rintro ⟨⟨x, hx, hxs⟩, z2, hz2, hs⟩
          refine ⟨_, List.mem_flatMap.mpr ⟨[x], hx, List.mem_map.mpr ⟨z2, hz2, rfl⟩⟩, ?_⟩
          exact .cons hxs (.cons (hlit _) ((sameSounds_left (hlat _ _)).mpr hs))

theorem groups_plain {ss : List Syl} (h : ∀ s ∈ ss, ¬ IsBlank s) : groups ss = [ss] := by
  induction ss with
  | nil => rfl
  | cons s r ih =>
    unfold groups
    rw [if_neg (h s (by simp)), ih fun t ht => h t (by simp [ht])]

theorem line_text {ss : List Syl} (h : ∀ s ∈ ss, ValidSyl s) : delimStr thaiSyl ch!"-" ss = .ok (enc8 (respelling ss)) := by
  rw [C20_string thaiSyl (fun s => enc8 (respelled s)) ch!"-" ss fun s hs _ => thai_exact s (h s hs),
    groups_plain fun s hs hb => (h s hs).iCons1 hb.2.1]
  refine congrArg Res.ok ?_
  change joinWith ch!"-" (ss.map fun s => enc8 (respelled s)) = _
  clear h
  induction ss with
  | nil => rfl
  | cons s r ih =>
    by_cases hr : r = []
    · subst hr; rfl
    · rw [List.map_cons, joinWith_cons _ _ _ (by simpa using hr), ih, respelling_cons s hr]
      simp [enc8, utf8EncodeOne]

theorem lists_spec {n : Nat} {w : U16Str} {Q : List (List Syl) → Bool}
    (h : parsesTo n w none [] (fun d => match PronunDAG.sylStrings d 0 with | .ok l => Q l | _ => false) = true) :
    ∃ d l, parseU16 thaiCType w none [] = .ok d ∧ PronunDAG.sylStrings d 0 = .ok l ∧ Q l = true := by
  obtain ⟨d, hd, h⟩ := parsesTo_spec h
  cases hl : PronunDAG.sylStrings d 0 with
  | ok l => rw [hl] at h; exact ⟨d, l, hd, hl, h⟩
  | _ => rw [hl] at h; cases h

end Thpronun
