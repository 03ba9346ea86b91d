import Verif.Lemmas.Opaque
import Verif.Props.Failing
import Verif.Props.Listed
import Verif.Props.Concat

/-! # Text other than Thai: C96 -/

namespace Thpronun
open Res Spec DAG

variable {ct : CType} {w w' : U16Str} {look : List Nat → Option Str} {brk : List Int} {p : Parser}

/-- By the rules, the readings of the one text are those of the other with the literal text exchanged. -/
theorem C96_readings (hct : ct.Ok) (X : ForeignExchange ct w w') (es' : List (Entry Syl)) :
    RuleReading ct w' look brk es' ↔ ∃ es, RuleReading ct w look brk es ∧
      es' = es.map fun e => ⟨e.key, e.target, withText w' e.key e.val⟩ := by
  have X0 : Twins ct w w' := ⟨hct, X⟩
  constructor
  · intro h
    obtain ⟨h1, h2⟩ := twin_reading X0.symm h
    refine ⟨_, h1, ?_⟩
    have : es'.map (reText w') = es'.map id := h2.trans (List.map_id es').symm
    conv_lhs => rw [← List.map_id es']
    rw [List.map_map]
    refine List.map_congr_left fun e he => ?_
    have ke := List.map_inj_left.mp this e he
    show e = reText w' (reText w e)
    have kv : withText w' e.key e.val = e.val := congrArg Entry.val ke
    unfold reText
    dsimp only
    rw [withText_back X.1.symm kv]
  · rintro ⟨es, h, rfl⟩
    exact (twin_reading X0 h).1

/-- Two texts that differ only in characters other than Thai letters, periods and spaces: either both fail with the same
error, or both are parsed, and they have the same pronunciations, except that each shows its own characters. The word
breaks have to be the same; nothing is asked of the dictionary. -/
theorem C96 (hct : ct.Ok) {word word' : Str} (hw : fromBytes word = .ok w) (hw' : fromBytes word' = .ok w')
    (X : ForeignExchange ct w w') (hd : Holds p.exceptDict look) (hg : GoodLook look)
    (hbrk : findBreaks w' p.thBrk = findBreaks w p.thBrk) (hb : ∀ b ∈ findBreaks w p.thBrk, b ≤ w.length) :
    (p.parseWord ct word = .throw .outOfRange ∧ p.parseWord ct word' = .throw .outOfRange) ∨
    ∃ d d' ss ss', p.parseWord ct word = .ok d ∧ p.parseWord ct word' = .ok d' ∧ PronunDAG.sylStrings d 0 = .ok ss ∧
      PronunDAG.sylStrings d' 0 = .ok ss' ∧ SameProns (ss.map (withTexts w' 0)) ss' := by
  have hr : Readable look := fun x data hx => (hg x data hx).imp fun _ h => h.1
  have X0 : Twins ct w w' := ⟨hct, X⟩
  rw [C37_word p word w hw, C37_word p word' w' hw', hbrk]
  have k := C37_exact hct w p.exceptDict _ look hd hr hb
  have k' := C37_exact hct w' p.exceptDict (findBreaks w p.thBrk) look hd hr (by rw [← X.1]; exact hb)
  rcases k.1 with ⟨d, h⟩ | h
  · refine .inr ?_
    obtain ⟨d', h'⟩ : ∃ d', parseU16 ct w' p.exceptDict (findBreaks w p.thBrk) = .ok d' := by
      rcases k'.1 with k1 | k1
      · exact k1
      · obtain ⟨c, hc⟩ := k'.2.mp k1
        rw [k.2.mpr ⟨_, twin_deadEnd X0.symm hc⟩] at h
        cases h
    rw [h, h']
    by_cases hne : w = []
    · subst hne
      obtain rfl : w' = [] := List.eq_nil_of_length_eq_zero X.1.symm
      rw [h] at h'
      cases h'
      have he : d = DAG.empty := by
        have e : parseU16Fuel ct [] 2 p.exceptDict (findBreaks [] p.thBrk) = .ok DAG.empty := rfl
        rw [parseU16_fuel (n := 2) (by rw [e]; simp), e] at h
        cases h
        rfl
      subst he
      exact ⟨_, _, [], [], rfl, rfl, rfl, rfl, SameProns.refl []⟩
    · have hne' : w' ≠ [] := fun e => hne (List.eq_nil_of_length_eq_zero (by rw [X.1, e]; rfl))
      obtain ⟨ss, a1, a2, a3, a4⟩ := listing_routes hct hd hg hne h
      obtain ⟨ss', b1, b2, b3, b4⟩ := listing_routes hct hd hg hne' h'
      refine ⟨d, d', ss, ss', rfl, rfl, a1, b1,
        matching (R := SamePron) SamePron.symm SamePron.trans _ _ ?_ b4 ?_ ?_⟩
      · rw [List.pairwise_map]
        refine a4.imp_of_mem fun {s t} hs ht hn hst => hn ?_
        have := twin_same X0.symm (twin_route X0 (a2 s hs)).1 hst
        rwa [(twin_route X0 (a2 s hs)).2, (twin_route X0 (a2 t ht)).2] at this
      · intro x hx
        obtain ⟨s, hs, rfl⟩ := List.mem_map.mp hx
        obtain ⟨s', k1, k2⟩ := b3 _ (by rw [← X.1]; exact (twin_route X0 (a2 s hs)).1)
        exact ⟨s', k1, SamePron.symm k2⟩
      · intro y hy
        obtain ⟨k1, k2⟩ := twin_route X0.symm (b2 y hy)
        obtain ⟨s, j1, j2⟩ := a3 _ (by rw [X.1]; exact k1)
        refine ⟨_, List.mem_map_of_mem j1, ?_⟩
        have := twin_same X0 (a2 s j1) j2
        rwa [k2] at this
  · obtain ⟨c, hc⟩ := k.2.mp h
    exact .inl ⟨h, k'.2.mpr ⟨_, twin_deadEnd X0 hc⟩⟩

/-- Every character outside the Thai block, except the period and the space, is such a character. -/
theorem C96_foreign (hct : ct.Ok) {c : Nat} (h : c < 0x0e01 ∨ 0x0e5b < c) (hd : c ≠ ch!".") (hs : c ≠ ch!" ") : Foreign ct c := by
  refine ⟨?_, ?_, hs⟩
  · rintro (k | k | k | k)
    · have := hct.cons c k; omega
    · have := hct.vowel c k; omega
    · have := hct.tone c k; omega
    · simp only [List.mem_cons, List.not_mem_nil, or_false] at k
      rcases k with rfl | rfl | rfl
      · revert h; decide
      · revert h; decide
      · exact hd rfl
  · cases e : ct.isLdVowel c with
    | false => rfl
    | true => have := hct.ld c e; omega

/-- How many pronunciations a word has without dictionary, if it is within reach. -/
private def countOpaque (w : U16Str) : Option Nat :=
  match parseU16Fuel thaiCType w 60 none [] with
  | .ok d => match PronunDAG.sylStrings d 0 with
    | .ok ss => some ss.length
    | _ => none
  | _ => none

private theorem countOpaque_spec {w : U16Str} {n : Nat} (h : countOpaque w = some n) :
    ∃ d ss, parseU16 thaiCType w none [] = .ok d ∧ PronunDAG.sylStrings d 0 = .ok ss ∧ ss.length = n := by
  unfold countOpaque at h
  cases hr : parseU16Fuel thaiCType w 60 none [] with
  | ok d =>
    rw [hr] at h
    dsimp only at h
    cases hs : PronunDAG.sylStrings d 0 with
    | ok s => rw [hs] at h; cases h; exact ⟨d, s, by rw [parseU16_fuel (n := 60) (by rw [hr]; simp), hr], hs, rfl⟩
    | _ => rw [hs] at h; cases h
  | _ => rw [hr] at h; cases h

/-- The space is not like the others: กา ก. has a pronunciation, กา(ก. has none. -/
theorem C96_space : ∃ d ss d' ss', parseU16 thaiCType u!"กา ก." none [] = .ok d ∧ PronunDAG.sylStrings d 0 = .ok ss ∧
    parseU16 thaiCType u!"กา(ก." none [] = .ok d' ∧ PronunDAG.sylStrings d' 0 = .ok ss' ∧ ss.length = 1 ∧ ss'.length = 0 := by
  obtain ⟨d, ss, h1, h2, h3⟩ := countOpaque_spec (w := u!"กา ก.") (n := 1) (by decide +kernel)
  obtain ⟨d', ss', h1', h2', h3'⟩ := countOpaque_spec (w := u!"กา(ก.") (n := 0) (by decide +kernel)
  exact ⟨d, ss, d', ss', h1, h2, h1', h2', h3, h3'⟩

private theorem foreignExchange_of {u v : U16Str} {s s' : U16Str} (h : s.length = s'.length) (hs : ∀ c ∈ s, Foreign ct c)
    (hs' : ∀ c ∈ s', Foreign ct c) : ForeignExchange ct (u ++ s ++ v) (u ++ s' ++ v) := by
  refine ⟨by simp [h], fun i => ?_⟩
  rw [List.append_assoc, List.append_assoc]
  rcases Nat.lt_or_ge i u.length with h2 | h2
  · exact .inl (by rw [List.getElem?_append_left h2, List.getElem?_append_left h2])
  · rw [List.getElem?_append_right h2, List.getElem?_append_right h2]
    rcases Nat.lt_or_ge (i - u.length) s.length with h3 | h3
    · rw [List.getElem?_append_left h3, List.getElem?_append_left (h ▸ h3)]
      exact .inr ⟨_, _, List.getElem?_eq_getElem h3, List.getElem?_eq_getElem (h ▸ h3), hs _ (List.getElem_mem _),
        hs' _ (List.getElem_mem _)⟩
    · exact .inl (by rw [List.getElem?_append_right h3, List.getElem?_append_right (h ▸ h3), h])

/-- The hypotheses are met: กา-ตาก and กา/ตาก, which are read. -/
example : thaiCType.Ok ∧ ForeignExchange thaiCType u!"กา-ตาก" u!"กา/ตาก" ∧
    (Parser.new (fun _ => []) false).exceptDict = none ∧ Holds none (fun _ => none) ∧ GoodLook (fun _ => none) ∧
    ∃ d ss, parseU16 thaiCType u!"กา-ตาก" none [] = .ok d ∧ PronunDAG.sylStrings d 0 = .ok ss ∧ ss.length = 1 :=
  ⟨thaiCType_ok, foreignExchange_of (u := u!"กา") (v := u!"ตาก") (s := u!"-") (s' := u!"/") rfl
      (by intro c h; cases List.mem_singleton.mp h; exact C96_foreign thaiCType_ok (.inl (by decide)) (by decide) (by decide))
      (by intro c h; cases List.mem_singleton.mp h; exact C96_foreign thaiCType_ok (.inl (by decide)) (by decide) (by decide)),
    rfl, holds_none, (fun v data h => by cases h), countOpaque_spec (by decide +kernel)⟩

end Thpronun
