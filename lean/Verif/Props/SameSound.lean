import Verif.Lemmas.SameSound
import Verif.Props.Failing
import Verif.Props.Listed
import Verif.Props.Concat

/-! # Letters of the same sound: C89 -/

namespace Thpronun
open Res Spec DAG

variable {ct : CType} {w w' : U16Str} {look : List Nat → Option Str} {brk : List Int} {p : Parser} {d : PronunDAG}

/-- The listing of a word without dictionary, if it is within reach. -/
private def pronsOf (w : U16Str) : Option (List SylString) :=
  match parseU16Fuel thaiCType w 60 none [] with
  | .ok d => match PronunDAG.sylStrings d 0 with
    | .ok ss => some ss
    | _ => none
  | _ => none

private theorem pronsOf_spec {w : U16Str} {ss : List SylString} (h : pronsOf w = some ss) :
    ∃ d, parseU16 thaiCType w none [] = .ok d ∧ PronunDAG.sylStrings d 0 = .ok ss := by
  unfold pronsOf at h
  cases hr : parseU16Fuel thaiCType w 60 none [] with
  | ok d =>
    rw [hr] at h
    dsimp only at h
    refine ⟨d, by rw [parseU16_fuel (n := 60) (by rw [hr]; simp), hr], ?_⟩
    cases hs : PronunDAG.sylStrings d 0 with
    | ok s => rw [hs] at h; cases h; rfl
    | _ => rw [hs] at h; cases h
  | _ => rw [hr] at h; cases h

/-- The vowel of a syllable. -/
private def vowelOf (x : Syl) : Option Vowel := if x.isLiteral then none else some x.vowel

private theorem vowelOf_eq {x y : Syl} (h : SameSyl x y) : vowelOf x = vowelOf y := by
  obtain ⟨h1, h2⟩ := (Syl.eq_iff x y).mp h.1
  have e : x.isLiteral = y.isLiteral := by unfold Syl.isLiteral; rw [h1]
  unfold vowelOf
  rw [← e]
  cases hx : x.isLiteral with
  | false => rw [(h2 hx).2.2.1]
  | true => rfl

/-- The two words are read differently: in how many ways, or in their vowels. -/
private def apart (w w' : U16Str) : Bool :=
  match pronsOf w, pronsOf w' with
  | some ss, some ss' => decide (ss.length ≠ ss'.length) ||
      ss.any fun s => ss'.all fun s' => decide (s.map vowelOf ≠ s'.map vowelOf)
  | _, _ => false

private theorem apart_spec {w w' : U16Str} (h : apart w w' = true) :
    ∃ d ss d' ss', parseU16 thaiCType w none [] = .ok d ∧ parseU16 thaiCType w' none [] = .ok d' ∧
      PronunDAG.sylStrings d 0 = .ok ss ∧ PronunDAG.sylStrings d' 0 = .ok ss' ∧ ¬ SameProns ss ss' := by
  unfold apart at h
  cases h1 : pronsOf w with
  | none => rw [h1] at h; cases h
  | some ss =>
    cases h2 : pronsOf w' with
    | none => rw [h1, h2] at h; cases h
    | some ss' =>
      rw [h1, h2] at h
      dsimp only at h
      obtain ⟨d, k1, k2⟩ := pronsOf_spec h1
      obtain ⟨d', k3, k4⟩ := pronsOf_spec h2
      refine ⟨d, ss, d', ss', k1, k3, k2, k4, ?_⟩
      rintro ⟨m, e1, e2⟩
      rcases Bool.or_eq_true_iff.mp h with h | h
      · have := e1.length_eq
        have := e2.length_eq
        have := of_decide_eq_true h
        omega
      · obtain ⟨s, hs, h⟩ := List.any_eq_true.mp h
        obtain ⟨i, hi, rfl⟩ := List.getElem_of_mem (e1.mem_iff.mp hs)
        have hi' : i < ss'.length := e2.length_eq ▸ hi
        have hk : SamePron m[i] ss'[i] := (List.forall₂_iff_get.mp e2).2 i hi hi'
        refine of_decide_eq_true (List.all_eq_true.mp h _ (List.getElem_mem hi')) ?_
        generalize m[i] = a at hk
        generalize ss'[i] = b at hk
        clear * - hk
        induction hk with
        | nil => rfl
        | cons h _ ih => rw [List.map_cons, List.map_cons, ih, vowelOf_eq h]

private theorem exchange_one {u v : U16Str} {c c' : Nat} (h : SoundAlike ct c c') :
    SoundExchange ct (u ++ c :: v) (u ++ c' :: v) := by
  refine ⟨by simp, fun i => ?_⟩
  by_cases hi : i = u.length
  · subst hi
    exact .inr ⟨c, c', by simp, by simp, h⟩
  · refine .inl ?_
    rcases Nat.lt_or_ge i u.length with h | h
    · rw [List.getElem?_append_left h, List.getElem?_append_left h]
    · rw [List.getElem?_append_right h, List.getElem?_append_right h]
      obtain ⟨n, hn⟩ : ∃ n, i - u.length = n + 1 := ⟨i - u.length - 1, by omega⟩
      rw [hn]; rfl

/-- It does matter with which of the letters of a sound a word is written: ตรา is read in three ways, ฏรา in two. -/
theorem C89_false : ∃ d ss d' ss', (Parser.new (fun _ => []) false).parseWord thaiCType b!"ตรา" = .ok d ∧
    (Parser.new (fun _ => []) false).parseWord thaiCType b!"ฏรา" = .ok d' ∧ SoundExchange thaiCType u!"ตรา" u!"ฏรา" ∧
    PronunDAG.sylStrings d 0 = .ok ss ∧ PronunDAG.sylStrings d' 0 = .ok ss' ∧ ss.length = 3 ∧ ss'.length = 2 := by
  have key : (pronsOf u!"ตรา").map List.length = some 3 ∧ (pronsOf u!"ฏรา").map List.length = some 2 := by decide +kernel
  obtain ⟨ss, h1, h2⟩ := Option.map_eq_some_iff.mp key.1
  obtain ⟨ss', h1', h2'⟩ := Option.map_eq_some_iff.mp key.2
  obtain ⟨d, k1, k2⟩ := pronsOf_spec h1
  obtain ⟨d', k1', k2'⟩ := pronsOf_spec h1'
  exact ⟨d, ss, d', ss', k1, k1', exchange_one (u := []) ⟨by decide, by decide, u!"ฏต", by decide, by decide, by decide⟩,
    k2, k2', h2, h2'⟩

/-- The neighbours that are possible on one side: any one of the letters, or it does not matter. -/
private def neighbours : Option U16Str → List U16Str
  | none => [[]]
  | some s => s.map fun c => [c]

/-- Every entry of the table of special places is needed: each special letter is read differently from each letter of the
same sound that is not special, beside each of the neighbours. -/
theorem C89_each : ∀ x ∈ specialPlaces, ∀ c ∈ x.letters, ∀ c', SoundAlike thaiCType c c' → c' ∉ x.letters →
    ∀ b : U16Str, (match x.before with | none => b = [] | some s => ∃ y ∈ s, b = [y]) →
    ∀ a : U16Str, (match x.after with | none => a = [] | some s => ∃ y ∈ s, a = [y]) →
    ∃ u v d ss d' ss', parseU16 thaiCType ((u ++ b) ++ c :: (a ++ v)) none [] = .ok d ∧
      parseU16 thaiCType ((u ++ b) ++ c' :: (a ++ v)) none [] = .ok d' ∧
      SoundExchange thaiCType ((u ++ b) ++ c :: (a ++ v)) ((u ++ b) ++ c' :: (a ++ v)) ∧
      PronunDAG.sylStrings d 0 = .ok ss ∧ PronunDAG.sylStrings d' 0 = .ok ss' ∧ ¬ SameProns ss ss' := by
  have key : ∀ x ∈ specialPlaces, ∀ c ∈ x.letters, ∀ g ∈ soundGroups, ∀ c' ∈ g, (c ∈ g ∧ c' ∉ x.letters) →
      ∀ b ∈ neighbours x.before, ∀ a ∈ neighbours x.after, ∃ u ∈ [[], u!"เก"], ∃ v ∈ [u!"า", u!"ก", [], u!"กา"],
        apart ((u ++ b) ++ c :: (a ++ v)) ((u ++ b) ++ c' :: (a ++ v)) = true := by decide +kernel
  have nb : ∀ {o : Option U16Str} {b : U16Str}, (match o with | none => b = [] | some s => ∃ y ∈ s, b = [y]) → b ∈ neighbours o := by
    intro o b h
    cases o with
    | none => cases h; exact List.mem_singleton.mpr rfl
    | some s => obtain ⟨y, h1, rfl⟩ := h; exact List.mem_map.mpr ⟨y, h1, rfl⟩
  intro x hx c hc c' hs hc' b hb a ha
  obtain ⟨-, -, g, hg, g1, g2⟩ := id hs
  obtain ⟨u, -, v, -, h⟩ := key x hx c hc g hg c' g2 ⟨g1, hc'⟩ b (nb hb) a (nb ha)
  obtain ⟨d, ss, d', ss', h1, h2, h3, h4, h5⟩ := apart_spec h
  exact ⟨u, v, d, ss, d', ss', h1, h2, exchange_one hs, h3, h4, h5⟩

/-- The rules read the two texts alike if they differ in letters of the same sound only and none of these is special. -/
theorem C89_readings_partial (hct : ct.Ok) (X : SoundExchange ct w w') (S : NoneSpecial w w')
    (hl : ∀ p q, p < q → q ≤ w.length → look (piece w p q) = look (piece w' p q)) (es : List (Entry Syl)) :
    RuleReading ct w look brk es ↔ RuleReading ct w' look brk es :=
  ⟨ssReading hct ⟨X, S⟩ hl, ssReading hct (Resound.symm ⟨X, S⟩) fun p q h1 h2 => (hl p q h1 (X.1 ▸ h2)).symm⟩

/-- Two texts that differ in letters of the same sound only are both parsed or both not, and have the same pronunciations,
if none of these letters is special at its place, the dictionary finds the same words in both, and they have the same word
breaks. (Missing: the special places, see `C89_each`.) -/
theorem C89_partial (hct : ct.Ok) {word word' : Str} (hw : fromBytes word = .ok w) (hw' : fromBytes word' = .ok w')
    (X : SoundExchange ct w w') (S : NoneSpecial w w') (hd : Holds p.exceptDict look) (hg : GoodLook look)
    (hl : ∀ p q, p < q → q ≤ w.length → look (piece w p q) = look (piece w' p q))
    (hbrk : findBreaks w' p.thBrk = findBreaks w p.thBrk) (hb : ∀ b ∈ findBreaks w p.thBrk, b ≤ w.length)
    (h : p.parseWord ct word = .ok d) :
    ∃ d' ss ss', p.parseWord ct word' = .ok d' ∧ PronunDAG.sylStrings d 0 = .ok ss ∧ PronunDAG.sylStrings d' 0 = .ok ss' ∧
      SameProns ss ss' := by
  have hr : Readable look := fun x data hx => (hg x data hx).imp fun _ h => h.1
  have hl' : ∀ p q, p < q → q ≤ w'.length → look (piece w' p q) = look (piece w p q) :=
    fun p q h1 h2 => (hl p q h1 (X.1 ▸ h2)).symm
  rw [C37_word p word w hw] at h
  rw [C37_word p word' w' hw', hbrk]
  obtain ⟨d', h'⟩ : ∃ d', parseU16 ct w' p.exceptDict (findBreaks w p.thBrk) = .ok d' := by
    have k := C37_exact hct w p.exceptDict _ look hd hr hb
    have k' := C37_exact hct w' p.exceptDict (findBreaks w p.thBrk) look hd hr (by rw [← X.1]; exact hb)
    rcases k'.1 with k1 | k1
    · exact k1
    · obtain ⟨c, hc⟩ := k'.2.mp k1
      rw [k.2.mpr ⟨c, ssDeadEnd hct (Resound.symm ⟨X, S⟩) hl' hc⟩] at h
      cases h
  rw [h']
  by_cases hne : w = []
  · subst hne
    obtain rfl : w' = [] := List.eq_nil_of_length_eq_zero X.1.symm
    rw [h] at h'
    cases h'
    obtain ⟨ss, hs, -⟩ := C38_listing hct hw hd hg (by rw [C37_word p word [] hw]; exact h)
    exact ⟨d, ss, ss, rfl, hs, hs, SameProns.refl ss⟩
  · have hne' : w' ≠ [] := fun e => hne (List.eq_nil_of_length_eq_zero (by rw [X.1, e]; rfl))
    have hE : ReadEdge ct w look (findBreaks w p.thBrk) = ReadEdge ct w' look (findBreaks w p.thBrk) := by
      funext a b x
      unfold ReadEdge
      simp only [C89_readings_partial hct X S hl]
    obtain ⟨ss, a1, a2, a3, a4⟩ := listing_routes hct hd hg hne h
    obtain ⟨ss', b1, b2, b3, b4⟩ := listing_routes hct hd hg hne' h'
    rw [hE, X.1] at a2 a3
    refine ⟨d', ss, ss', rfl, a1, b1, matching (R := SamePron) SamePron.symm SamePron.trans _ _ a4 b4 (fun s hs => ?_) fun s hs => a3 s (b2 s hs)⟩
    obtain ⟨s', k1, k2⟩ := b3 s (a2 s hs)
    exact ⟨s', k1, SamePron.symm k2⟩

/-- Checks that no letter is special. -/
private def noneSpecialB (w w' : U16Str) : Bool :=
  (List.range w.length).all fun i => specialPlaces.all fun x =>
    match w[i]?, w'[i]? with
    | some c, some c' => decide (c ∈ x.letters ↔ c' ∈ x.letters) ||
        !([w, w'].any fun (w : U16Str) =>
          (match x.before with | none => true | some s => decide (1 ≤ i) && (w[i - 1]?).any fun c => decide (c ∈ s)) &&
          (match x.after with | none => true | some s => (w[i + 1]?).any fun c => decide (c ∈ s)))
    | _, _ => true

private theorem noneSpecialB_spec (h : noneSpecialB w w' = true) : NoneSpecial w w' := by
  intro i x hx hf c c' h1 h2
  have hi : i < w.length := (List.getElem?_eq_some_iff.mp h1).1
  have := List.all_eq_true.mp (List.all_eq_true.mp h i (List.mem_range.mpr hi)) x hx
  rw [h1, h2] at this
  dsimp only at this
  rcases Bool.or_eq_true_iff.mp this with this | this
  · exact of_decide_eq_true this
  · exfalso
    have fit : ∀ {v : U16Str}, x.Fits v i →
        ((match x.before with | none => true | some s => decide (1 ≤ i) && (v[i - 1]?).any fun c => decide (c ∈ s)) &&
          (match x.after with | none => true | some s => (v[i + 1]?).any fun c => decide (c ∈ s))) = true := by
      rintro v ⟨f1, f2⟩
      refine Bool.and_eq_true_iff.mpr ⟨?_, ?_⟩
      · cases hb : x.before with
        | none => rfl
        | some s =>
          obtain ⟨j, y, rfl, f3, f4⟩ := f1 s hb
          dsimp only
          rw [show j + 1 - 1 = j from rfl, f3]
          simp [f4]
      · cases ha : x.after with
        | none => rfl
        | some s =>
          obtain ⟨y, f3, f4⟩ := f2 s ha
          dsimp only
          rw [f3]
          simp [f4]
    rw [Bool.not_eq_true', List.any_eq_false] at this
    rcases hf with hf | hf
    · exact this w (by simp) (fit hf)
    · exact this w' (by simp) (fit hf)

/-- The hypotheses are met: ธรรมสาร and ธรรมศาร, ภาษา and พาสา, ทหาร and ธหาร. -/
example : (SoundExchange thaiCType u!"ธรรมสาร" u!"ธรรมศาร" ∧ NoneSpecial u!"ธรรมสาร" u!"ธรรมศาร") ∧
    (SoundExchange thaiCType u!"ภาษา" u!"พาสา" ∧ NoneSpecial u!"ภาษา" u!"พาสา") ∧
    (SoundExchange thaiCType u!"ทหาร" u!"ธหาร" ∧ NoneSpecial u!"ทหาร" u!"ธหาร") ∧
    (Parser.new (fun _ => []) false).exceptDict = none ∧ Holds none (fun _ => none) ∧ GoodLook (fun _ => none) ∧
    ∃ d ss, parseU16 thaiCType u!"ภาษา" none [] = .ok d ∧ PronunDAG.sylStrings d 0 = .ok ss ∧ ss ≠ [] := by
  refine ⟨⟨exchange_one (u := u!"ธรรม") (v := u!"าร") ⟨by decide, by decide, u!"ศษส", by decide, by decide, by decide⟩,
    noneSpecialB_spec (by decide +kernel)⟩, ⟨⟨rfl, fun i => ?_⟩, noneSpecialB_spec (by decide +kernel)⟩,
    ⟨exchange_one (u := []) (v := u!"หาร") ⟨by decide, by decide, u!"ฑฒทธ", by decide, by decide, by decide⟩,
    noneSpecialB_spec (by decide +kernel)⟩, rfl, holds_none, (fun v data h => by cases h), ?_⟩
  · match i with
    | 0 => exact .inr ⟨ch!"ภ", ch!"พ", rfl, rfl, by decide, by decide, u!"พภ", by decide, by decide, by decide⟩
    | 1 => exact .inl rfl
    | 2 => exact .inr ⟨ch!"ษ", ch!"ส", rfl, rfl, by decide, by decide, u!"ศษส", by decide, by decide, by decide⟩
    | 3 => exact .inl rfl
    | n + 4 => exact .inl rfl
  · have key : ((pronsOf u!"ภาษา").map fun ss => decide (ss ≠ [])) = some true := by decide +kernel
    obtain ⟨ss, h1, h2⟩ := Option.map_eq_some_iff.mp key
    obtain ⟨d, k1, k2⟩ := pronsOf_spec h1
    exact ⟨d, ss, k1, k2, of_decide_eq_true h2⟩

end Thpronun
