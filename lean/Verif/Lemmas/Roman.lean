import Verif.Lemmas.Notation
import Verif.Lemmas.Output

/-! # Lemmas about Roman, phonetic and Soundex notation -/

namespace Thpronun
open Spec

/-! ## Soundex -/

theorem soundex_init : ∀ i ∈ allInit, ∀ j ∈ allInit,
    mapAt soundexInitConsTbl i = mapAt soundexInitConsTbl j ↔ mergeRL i = mergeRL j := by
  decide +kernel
theorem soundex_vowel : ∀ i ∈ vowels, ∀ j ∈ vowels,
    mapAt soundexVowelTbl i = mapAt soundexVowelTbl j ↔ shortOf i = shortOf j := by
  decide +kernel
theorem soundex_end (i j : EndConsClass) :
    mapAt soundexEndConsTbl i = mapAt soundexEndConsTbl j ↔ i = j := by
  cases i <;> cases j <;> decide

theorem soundex_iff (s s' : Syl) (h : ValidSyl s) (h' : ValidSyl s') :
    soundexSyl s = soundexSyl s' ↔ mergeRL s.iCons1 = mergeRL s'.iCons1 ∧
      shortOf s.vowel = shortOf s'.vowel ∧ s.eCons = s'.eCons := by
  obtain ⟨a, c, d, ha, hc, hd, ht⟩ := soundex_valid s h
  obtain ⟨a', c', d', ha', hc', hd', ht'⟩ := soundex_valid s' h'
  rw [ht, ht', ← soundex_init _ (mem_allInit h.iCons1) _ (mem_allInit h'.iCons1),
    ← soundex_vowel _ h.vowel _ h'.vowel, ← soundex_end, ha, ha', hc, hc', hd, hd']
  simp

/-! ## Phonetic -/

def vowelLetter (b : Nat) : Bool := decide (b ∈ b!"aiueo")

theorem split_vowel {x x' y y' : Str} (hx : ∀ b ∈ x, vowelLetter b = false)
    (hx' : ∀ b ∈ x', vowelLetter b = false) (hy : ∃ b ∈ y.head?, vowelLetter b = true)
    (hy' : ∃ b ∈ y'.head?, vowelLetter b = true) (h : x ++ y = x' ++ y') : x = x' ∧ y = y' := by
  induction x generalizing x' with
  | nil =>
    cases x' with
    | nil => exact ⟨rfl, h⟩
    | cons b x' =>
      rw [List.nil_append] at h
      obtain ⟨c, hc, hv⟩ := hy
      rw [h] at hc
      simp at hc
      rw [← hc, hx' b (by simp)] at hv
      exact absurd hv (by simp)
  | cons b x ih =>
    cases x' with
    | nil =>
      rw [List.nil_append] at h
      obtain ⟨c, hc, hv⟩ := hy'
      rw [← h] at hc
      simp at hc
      rw [← hc, hx b (by simp)] at hv
      exact absurd hv (by simp)
    | cons b' x' =>
      simp only [List.cons_append, List.cons.injEq] at h
      obtain ⟨rfl, h⟩ := h
      obtain ⟨h1, h2⟩ := ih (fun b hb => hx b (by simp [hb])) (fun b hb => hx' b (by simp [hb])) h
      exact ⟨by rw [h1], h2⟩

theorem phonetic_onset : ∀ i ∈ allInit, ∀ c ∈ clusters, ∀ i' ∈ allInit, ∀ c' ∈ clusters,
    (do let a ← mapAt phoneticInitConsTbl i; let b ← mapAt phoneticSecInitConsTbl c; pure (a ++ b)) =
      (do let a ← mapAt phoneticInitConsTbl i'; let b ← mapAt phoneticSecInitConsTbl c'; pure (a ++ b)) ↔
    onset ⟨i, c, 0, .NONE, .SAMAN, [], 0⟩ = onset ⟨i', c', 0, .NONE, .SAMAN, [], 0⟩ := by
  decide +kernel

theorem phonetic_vowel : ∀ p ∈ phoneticVowelTbl, ∀ q ∈ phoneticVowelTbl,
    p.2 <+: q.2 → p = q := by decide +kernel

theorem phonetic_end (i j : EndConsClass) :
    mapAt phoneticEndConsTbl i = mapAt phoneticEndConsTbl j ↔ i = j := by
  cases i <;> cases j <;> decide
theorem phonetic_tone : ∀ i ∈ allTones, ∀ j ∈ allTones,
    mapAt phoneticToneTbl i = mapAt phoneticToneTbl j ↔ i = j := by decide +kernel

theorem phonetic_iff (s s' : Syl) (h : ValidSyl s) (h' : ValidSyl s') :
    phoneticSyl s = phoneticSyl s' ↔ onset s = onset s' ∧
      s.vowel = s'.vowel ∧ s.eCons = s'.eCons ∧ s.tone = s'.tone := by
  obtain ⟨a, b, c, d, e, ha, hb, hc, hd, he, ht⟩ := phonetic_valid s h
  obtain ⟨a', b', c', d', e', ha', hb', hc', hd', he', ht'⟩ := phonetic_valid s' h'
  have hon := phonetic_onset _ (mem_allInit h.iCons1) _ h.iCons2 _ (mem_allInit h'.iCons1) _ h'.iCons2
  have o1 : onset ⟨s.iCons1, s.iCons2, 0, .NONE, .SAMAN, [], 0⟩ = onset s := rfl
  have o2 : onset ⟨s'.iCons1, s'.iCons2, 0, .NONE, .SAMAN, [], 0⟩ = onset s' := rfl
  simp only [ha, hb, ha', hb', Res.ok_bind, Res.pure_eq, Res.ok.injEq, o1, o2] at hon
  rw [ht, ht', Res.ok.injEq, ← hon, ← phonetic_end,
    ← phonetic_tone _ (mem_allTones h.tone) _ (mem_allTones h'.tone), hd, hd', he, he']
  constructor
  · intro heq
    have cons : ∀ (t : List (InitConsSound × Str)) (x : InitConsSound) (y : Str),
        t = phoneticInitConsTbl → mapAt t x = .ok y → ∀ b ∈ y, vowelLetter b = false := by
      rintro _ x y rfl h
      exact (by decide +kernel : ∀ p ∈ phoneticInitConsTbl, ∀ b ∈ p.2, vowelLetter b = false) _
        (mapAt_mem h)
    have cons2 : ∀ (x : Int) (y : Str), mapAt phoneticSecInitConsTbl x = .ok y →
        ∀ b ∈ y, vowelLetter b = false := by
      intro x y h
      exact (by decide +kernel : ∀ p ∈ phoneticSecInitConsTbl, ∀ b ∈ p.2, vowelLetter b = false) _
        (mapAt_mem h)
    have vow : ∀ (x : Int) (y z : Str), mapAt phoneticVowelTbl x = .ok y →
        ∃ b ∈ (y ++ z).head?, vowelLetter b = true := by
      intro x y z h
      have := (by decide +kernel : ∀ p ∈ phoneticVowelTbl, p.2.head?.any vowelLetter = true) _
        (mapAt_mem h)
      cases y with
      | nil => simp at this
      | cons b y => exact ⟨b, by simp, by simpa using this⟩
    have e1 : (a ++ b) ++ (c ++ (d ++ e)) = (a' ++ b') ++ (c' ++ (d' ++ e')) := by
      simpa [List.append_assoc] using heq
    obtain ⟨h1, h2⟩ := split_vowel
      (by
        intro x hx
        rcases List.mem_append.mp hx with hx | hx
        · exact cons _ _ _ rfl ha x hx
        · exact cons2 _ _ hb x hx)
      (by
        intro x hx
        rcases List.mem_append.mp hx with hx | hx
        · exact cons _ _ _ rfl ha' x hx
        · exact cons2 _ _ hb' x hx)
      (vow _ _ _ hc) (vow _ _ _ hc') e1
    have hv : s.vowel = s'.vowel ∧ c = c' := by
      rcases List.prefix_or_prefix_of_prefix (List.prefix_append c (d ++ e))
        (h2 ▸ List.prefix_append c' (d' ++ e')) with hp | hp
      · have := phonetic_vowel _ (mapAt_mem hc) _ (mapAt_mem hc') hp
        exact ⟨congrArg Prod.fst this, congrArg Prod.snd this⟩
      · have := phonetic_vowel _ (mapAt_mem hc') _ (mapAt_mem hc) hp
        exact ⟨(congrArg Prod.fst this).symm, (congrArg Prod.snd this).symm⟩
    obtain ⟨hv1, rfl⟩ := hv
    have h3 : d ++ e = d' ++ e' := List.append_cancel_left h2
    have len : ∀ (x : Tone) (y : Str), mapAt phoneticToneTbl x = .ok y → y.length = 1 := fun x y h =>
      (by decide +kernel : ∀ p ∈ phoneticToneTbl, p.2.length = 1) _ (mapAt_mem h)
    obtain ⟨h4, h5⟩ := List.append_inj' h3 (by rw [len _ _ he, len _ _ he'])
    exact ⟨h1, hv1, by rw [h4], by rw [h5]⟩
  · rintro ⟨h1, h2, h3, h4⟩
    rw [h2, hc'] at hc
    cases hc; cases h3; cases h4
    rw [h1]

/-! ## Romanization -/

theorem roman_vowel : ∀ i ∈ vowels, ∀ j ∈ vowels, shortOf i = shortOf j →
    mapAt romanVowelTbl i = mapAt romanVowelTbl j := by decide +kernel

theorem roman_congr (s s' : Syl) (h : ValidSyl s) (h' : ValidSyl s') (h1 : s.iCons1 = s'.iCons1)
    (h2 : s.iCons2 = s'.iCons2) (h3 : shortOf s.vowel = shortOf s'.vowel) (h4 : s.eCons = s'.eCons) :
    romanSyl s = romanSyl s' := by
  rw [romanSyl, romanSyl, if_neg h.not_blank, if_neg h'.not_blank, if_neg h.not_literal,
    if_neg h'.not_literal, h1, h2, roman_vowel _ h.vowel _ h'.vowel h3, h4]

/-- What follows the first syllable of a group. -/
def hyphTail (txt : Syl → Str) (prev : Syl) : List Syl → Str
  | [] => []
  | s :: r => (if needsHyphen prev s then b!"-" else []) ++ txt s ++ hyphTail txt s r

theorem hyphenated_cons (txt : Syl → Str) (s : Syl) (r : List Syl) :
    hyphenated txt (s :: r) = txt s ++ hyphTail txt s r := by
  induction r generalizing s with
  | nil => simp [hyphenated, hyphTail]
  | cons s' r ih => rw [hyphenated, ih, hyphTail]; simp

theorem needsHyphen_eq (prev s : Syl) : needsHyphen prev s = (decide (InitConsSound.A = s.iCons1)
    || (decide (EndConsClass.NONE = prev.eCons) && decide (InitConsSound.NGA = s.iCons1))) := by
  rw [needsHyphen, Bool.and_comm]
  simp only [eq_comm]

theorem romanLoop_begin (txt : Syl → Str) (l : SylString)
    (h : ∀ s ∈ l, ¬ IsBlank s → romanSyl s = .ok (txt s)) (prev : Syl) :
    romanLoop prev true l = .ok (joinWith 32 ((groups l).map fun g => g.flatMap txt)) := by
  induction l generalizing prev with
  | nil => simp [romanLoop, groups, joinWith]
  | cons s l ih =>
    have ih := ih fun x hx => h x (List.mem_cons_of_mem _ hx)
    obtain ⟨g, gs, hg⟩ := List.exists_cons_of_ne_nil (groups_ne_nil l)
    rw [romanLoop]
    by_cases hb : IsBlank s
    · rw [if_pos ((isBlank_iff s).mpr hb), ih s]
      simp only [Res.ok_bind, Res.pure_eq, groups, hb, if_true, List.map_cons, List.flatMap_nil]
      rw [joinWith_cons _ _ _ (by simp [groups_ne_nil])]
      simp
    · rw [if_neg fun e => hb ((isBlank_iff s).mp e), ih s, h s (by simp) hb]
      simp only [Res.ok_bind, Res.pure_eq, groups, hb, if_false, hg, List.map_cons, List.flatMap_cons,
        Bool.not_true, Bool.false_and, Bool.false_eq_true, List.nil_append]
      rw [joinWith_head]

theorem romanLoop_groups (txt : Syl → Str) (l : SylString)
    (h : ∀ s ∈ l, ¬ IsBlank s → romanSyl s = .ok (txt s)) (prev : Syl) :
    romanLoop prev false l = .ok (match groups l with
      | [] => []
      | g :: gs => joinWith 32 (hyphTail txt prev g :: gs.map fun g => g.flatMap txt)) := by
  induction l generalizing prev with
  | nil => simp [romanLoop, groups, joinWith, hyphTail]
  | cons s l ih =>
    have ih := ih fun x hx => h x (List.mem_cons_of_mem _ hx)
    obtain ⟨g, gs, hg⟩ := List.exists_cons_of_ne_nil (groups_ne_nil l)
    rw [hg] at ih
    rw [romanLoop]
    by_cases hb : IsBlank s
    · rw [if_pos ((isBlank_iff s).mpr hb),
        romanLoop_begin txt l (fun x hx => h x (List.mem_cons_of_mem _ hx)) s]
      simp only [Res.ok_bind, Res.pure_eq, groups, hb, if_true, hyphTail]
      rw [joinWith_cons _ _ _ (by simp [groups_ne_nil])]
      simp
    · rw [if_neg fun e => hb ((isBlank_iff s).mp e), ih s, h s (by simp) hb]
      simp only [Res.ok_bind, Res.pure_eq, groups, hb, if_false, hg, hyphTail,
        Bool.not_false, Bool.true_and, ← needsHyphen_eq]
      rw [joinWith_head]

theorem roman_ne_nil {s : Syl} {t : Str} (h : romanSyl s = .ok t) : t ≠ [] := by
  unfold romanSyl at h
  split at h
  · cases h; simp
  split at h
  · rcases literal_cases s.literal with ⟨cs, _, h'⟩ | ⟨_, h'⟩
    · rw [h'] at h; cases h; simp
    · rw [h'] at h; cases h
  · obtain ⟨a, _, h⟩ := Res.bind_eq_ok.mp h
    obtain ⟨b, _, h⟩ := Res.bind_eq_ok.mp h
    obtain ⟨c, hc, h⟩ := Res.bind_eq_ok.mp h
    obtain ⟨d, _, h⟩ := Res.bind_eq_ok.mp h
    have := (by decide +kernel : ∀ p ∈ romanVowelTbl, p.2 ≠ []) _ (mapAt_mem hc)
    cases h
    simpa using fun _ _ h => absurd h this

theorem upper_eq (b : Nat) : toUpperByte b =
    (if b ∈ b!"abcdefghijklmnopqrstuvwxyz" then b - 32 else b) := by
  unfold toUpperByte
  have : (97 ≤ b ∧ b ≤ 122) ↔ b ∈ b!"abcdefghijklmnopqrstuvwxyz" := by
    show _ ↔ b ∈ [97, 98, 99, 100, 101, 102, 103, 104, 105, 106, 107, 108, 109, 110, 111, 112, 113,
      114, 115, 116, 117, 118, 119, 120, 121, 122]
    simp only [List.mem_cons, List.not_mem_nil, or_false]
    omega
  simp only [this]

theorem roman_capital (l : SylString) :
    romanStr true l = romanStr false l >>= fun t => .ok (upperFirst t) := by
  cases l with
  | nil => rfl
  | cons s ss =>
    simp only [romanStr, if_true, Bool.false_eq_true, if_false]
    cases ho : romanSyl s with
    | ok o =>
      obtain ⟨b, o, rfl⟩ := List.exists_cons_of_ne_nil (roman_ne_nil ho)
      cases romanLoop s false ss <;> simp [capitalize, upperFirst, upper_eq]
    | _ => simp

end Thpronun
