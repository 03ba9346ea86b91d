import Verif.Lemmas.Again
import Verif.Lemmas.Desc
import Verif.Lemmas.Raw
import Verif.Lemmas.Roman
import Verif.Props.Output
import Verif.Spec.Split

/-! # Taking printed lines apart -/

namespace Thpronun
open Res Spec

/-! ## Delimited lines -/

theorem joinWith_inj (sep : Byte) (ps qs : List Str) (h1 : ps ≠ []) (h2 : qs ≠ []) (h3 : ∀ a ∈ ps, sep ∉ a)
    (h4 : ∀ a ∈ qs, sep ∉ a) (h : joinWith sep ps = joinWith sep qs) : ps = qs := by
  have a := (splitOn_iff sep (joinWith sep ps) ps).mpr ⟨h1, h3, rfl⟩
  have b := (splitOn_iff sep (joinWith sep ps) qs).mpr ⟨h2, h4, h⟩
  rw [← a, b]

theorem mem_joinWith {sep x : Byte} {ps : List Str} (h : x ∈ joinWith sep ps) : x = sep ∨ ∃ p ∈ ps, x ∈ p := by
  induction ps with
  | nil => simp [joinWith] at h
  | cons a r ih =>
    cases r with
    | nil => exact .inr ⟨a, by simp, by simpa [joinWith] using h⟩
    | cons b r =>
      simp only [joinWith, List.mem_append, List.mem_cons] at h
      rcases h with h | h | h
      · exact .inr ⟨a, by simp, h⟩
      · exact .inl h
      · rcases ih h with h | ⟨p, hp, h⟩
        · exact .inl h
        · exact .inr ⟨p, by simp [hp], h⟩

theorem joinWith_eq_nil {sep : Byte} {ps : List Str} (h : ∀ p ∈ ps, p ≠ []) (he : joinWith sep ps = []) : ps = [] := by
  match ps with
  | [] => rfl
  | [a] => exact absurd (by simpa [joinWith] using he) (h a (by simp))
  | a :: b :: r => simp [joinWith] at he

theorem mem_groups {l g : List Syl} {s : Syl} (hg : g ∈ groups l) (hs : s ∈ g) : s ∈ l ∧ ¬ IsBlank s := by
  induction l generalizing g with
  | nil => simp [groups] at hg; subst hg; cases hs
  | cons a l ih =>
    rw [groups] at hg
    split at hg
    · rcases List.mem_cons.mp hg with rfl | hg
      · cases hs
      · exact ⟨by simp [(ih hg hs).1], (ih hg hs).2⟩
    · rename_i hb
      cases hgl : groups l with
      | nil => exact absurd hgl (groups_ne_nil l)
      | cons g0 gs =>
        rw [hgl] at hg
        rcases List.mem_cons.mp hg with rfl | hg
        · rcases List.mem_cons.mp hs with rfl | hs
          · exact ⟨by simp, hb⟩
          · have := ih (by rw [hgl]; simp) hs
            exact ⟨by simp [this.1], this.2⟩
        · have := ih (by rw [hgl]; simp [hg]) hs
          exact ⟨by simp [this.1], this.2⟩

/-- Joined groups can be taken apart. -/
theorem joined_groups_inj (txt : Syl → Str) (delim : Byte) (hd : delim ≠ 32) (l l' : List Syl)
    (h : ∀ s ∈ l, ¬ IsBlank s → txt s ≠ [] ∧ delim ∉ txt s ∧ 32 ∉ txt s)
    (h' : ∀ s ∈ l', ¬ IsBlank s → txt s ≠ [] ∧ delim ∉ txt s ∧ 32 ∉ txt s)
    (he : joinWith 32 ((groups l).map fun g => joinWith delim (g.map txt)) =
      joinWith 32 ((groups l').map fun g => joinWith delim (g.map txt))) :
    (groups l).map (List.map txt) = (groups l').map (List.map txt) := by
  have no : ∀ l : List Syl, (∀ s ∈ l, ¬ IsBlank s → txt s ≠ [] ∧ delim ∉ txt s ∧ 32 ∉ txt s) →
      ∀ a ∈ (groups l).map fun g => joinWith delim (g.map txt), (32 : Nat) ∉ a := by
    intro l h a ha hm
    obtain ⟨g, hg, rfl⟩ := List.mem_map.mp ha
    rcases mem_joinWith hm with e | ⟨p, hp, hx⟩
    · exact hd e.symm
    · obtain ⟨s, hs, rfl⟩ := List.mem_map.mp hp
      exact (h s (mem_groups hg hs).1 (mem_groups hg hs).2).2.2 hx
  have e := joinWith_inj 32 _ _ (by simpa using groups_ne_nil l) (by simpa using groups_ne_nil l') (no l h) (no l' h') he
  have key : ∀ gs gs' : List (List Syl),
      (∀ g ∈ gs, ∀ s ∈ g, txt s ≠ [] ∧ delim ∉ txt s) → (∀ g ∈ gs', ∀ s ∈ g, txt s ≠ [] ∧ delim ∉ txt s) →
      (gs.map fun g => joinWith delim (g.map txt)) = (gs'.map fun g => joinWith delim (g.map txt)) →
      gs.map (List.map txt) = gs'.map (List.map txt) := by
    intro gs
    induction gs with
    | nil => intro gs' _ _ he; simpa using he
    | cons g gs ih =>
      intro gs' h1 h2 he
      cases gs' with
      | nil => simp at he
      | cons g' gs' =>
        simp only [List.map_cons, List.cons.injEq] at he ⊢
        refine ⟨?_, ih gs' (fun x hx => h1 x (by simp [hx])) (fun x hx => h2 x (by simp [hx])) he.2⟩
        have t1 : ∀ p ∈ g.map txt, p ≠ [] := by
          intro p hp; obtain ⟨s, hs, rfl⟩ := List.mem_map.mp hp; exact (h1 g (by simp) s hs).1
        have t2 : ∀ p ∈ g'.map txt, p ≠ [] := by
          intro p hp; obtain ⟨s, hs, rfl⟩ := List.mem_map.mp hp; exact (h2 g' (by simp) s hs).1
        by_cases hg : g.map txt = []
        · have e1 := he.1
          rw [hg] at e1 ⊢
          exact (joinWith_eq_nil t2 (by simpa [joinWith] using e1.symm)).symm
        by_cases hg' : g'.map txt = []
        · have e1 := he.1
          rw [hg'] at e1 ⊢
          exact joinWith_eq_nil t1 (by simpa [joinWith] using e1)
        exact joinWith_inj delim _ _ hg hg'
          (fun p hp => by obtain ⟨s, hs, rfl⟩ := List.mem_map.mp hp; exact (h1 g (by simp) s hs).2)
          (fun p hp => by obtain ⟨s, hs, rfl⟩ := List.mem_map.mp hp; exact (h2 g' (by simp) s hs).2) he.1
  refine key _ _ (fun g hg s hs => ?_) (fun g hg s hs => ?_) e
  · have := h s (mem_groups hg hs).1 (mem_groups hg hs).2
    exact ⟨this.1, this.2.1⟩
  · have := h' s (mem_groups hg hs).1 (mem_groups hg hs).2
    exact ⟨this.1, this.2.1⟩

theorem raw_chars (s : Syl) (h : ValidSyl s) : ∃ t, rawSyl s = .ok t ∧ t ≠ [] ∧ ch!"," ∉ t ∧ 32 ∉ t := by
  refine ⟨_, rawSyl_valid s h, by simp, raw_no_sep s h _ (.inl rfl), ?_⟩
  obtain ⟨h0, h1, h2, h3, h4⟩ := h
  cases s with
  | mk i1 i2 v e t l p =>
  simp only at h2 h3 ⊢
  have h1' : 32 ≠ rawI i1 := by cases i1 <;> decide
  have h2' := (by decide +kernel : ∀ x ∈ Spec.clusters, 32 ≠ x.toNat) i2 h2
  have h3' := (by decide +kernel : ∀ x ∈ vowels, 32 ≠ x.toNat) v h3
  have h4' : 32 ≠ rawE e := by cases e <;> decide
  have h5' : 32 ≠ rawT t := by cases t <;> decide
  have h6' : 32 ∉ toStringInt p := fun hm => by
    have := toStringInt_chars p 32 hm
    omega
  simp only [List.mem_append, List.mem_cons, List.not_mem_nil, or_false, not_or]
  exact ⟨⟨⟨h1', h2', h3', h4', h5'⟩, by decide⟩, h6'⟩

theorem soundex_chars (s : Syl) (h : ValidSyl s) : ∃ t, soundexSyl s = .ok t ∧ t ≠ [] ∧ ch!"-" ∉ t ∧ 32 ∉ t := by
  obtain ⟨a, c, d, ha, hc, hd, e⟩ := soundex_valid s h
  have p1 := (by decide +kernel : ∀ p ∈ soundexInitConsTbl, ch!"-" ∉ p.2 ∧ 32 ∉ p.2) _ (mapAt_mem ha)
  have p2 := (by decide +kernel : ∀ p ∈ soundexVowelTbl, ch!"-" ∉ p.2 ∧ 32 ∉ p.2) _ (mapAt_mem hc)
  have p3 := (by decide +kernel : ∀ p ∈ soundexEndConsTbl, ch!"-" ∉ p.2 ∧ 32 ∉ p.2) _ (mapAt_mem hd)
  simp only [List.mem_singleton] at p1 p2 p3
  exact ⟨_, e, by simp, by simp [p1.1, p2.1, p3.1], by simp [p1.2, p2.2, p3.2]⟩

theorem phonetic_chars (s : Syl) (h : ValidSyl s) : ∃ t, phoneticSyl s = .ok t ∧ t ≠ [] ∧ 32 ∉ t := by
  obtain ⟨a, b, c, d, e, ha, hb, hc, hd, he, ht⟩ := phonetic_valid s h
  have p1 := (by decide +kernel : ∀ p ∈ phoneticInitConsTbl, 32 ∉ p.2) _ (mapAt_mem ha)
  have p2 := (by decide +kernel : ∀ p ∈ phoneticSecInitConsTbl, 32 ∉ p.2) _ (mapAt_mem hb)
  have p3 := (by decide +kernel : ∀ p ∈ phoneticVowelTbl, 32 ∉ p.2 ∧ p.2 ≠ []) _ (mapAt_mem hc)
  have p4 := (by decide +kernel : ∀ p ∈ phoneticEndConsTbl, 32 ∉ p.2) _ (mapAt_mem hd)
  have p5 := (by decide +kernel : ∀ p ∈ phoneticToneTbl, 32 ∉ p.2) _ (mapAt_mem he)
  exact ⟨_, ht, by simp [p3.2], by simp_all⟩

theorem thai_chars (s : Syl) (h : ValidSyl s) : ∃ t, thaiSyl s = .ok t ∧ t ≠ [] ∧ ch!"-" ∉ t ∧ 32 ∉ t := by
  obtain ⟨t, ht, cs, cls, rfl, hch, hcls, hr⟩ := (Res.sat_iff _ _).mp (thai_spec s h)
  have big : ∀ x ∈ enc8 cs, 128 ≤ x := by
    intro x hx
    simp only [enc8, List.mem_flatMap] at hx
    obtain ⟨c, hc, hx⟩ := hx
    have := hch c hc
    unfold utf8EncodeOne at hx
    split at hx
    · omega
    split at hx
    · simp at hx; omega
    split at hx <;> (simp at hx; omega)
  refine ⟨_, ht, ?_, fun hx => ?_, fun hx => ?_⟩
  · obtain ⟨t', ht', hs⟩ := (Res.sat_iff _ _).mp (thai_text s h)
    rw [ht] at ht'
    cases ht'
    exact hs.1
  · have := big _ hx
    revert this; decide
  · have := big _ hx
    revert this; decide

/-! ## Roman lines -/

/-- The text of a result. -/
def val : Res Str → Str
  | .ok t => t
  | _ => []

def rOn (i : InitConsSound) (c : Int) : Str := val (mapAt romanInitConsTbl i) ++ val (mapAt romanSecInitConsTbl c)
def rRun (v : Int) (e : EndConsClass) : Str :=
  val (mapAt romanVowelTbl v) ++ (if e = .KOEY then b!"i" else if e = .KOEW then b!"o" else [])
def rFin (e : EndConsClass) : Str := if e = .KOEY ∨ e = .KOEW then [] else val (mapAt romanEndConsTbl e)

def isV (c : Nat) : Bool := decide (c ∈ b!"aeiou")
def isC (c : Nat) : Bool := !isV c && decide (c ≠ ch!"-")

def allEnd : List EndConsClass := [.NONE, .KOK, .KOT, .KOP, .KONG, .KON, .KOM, .KOEY, .KOEW]
theorem mem_allEnd (e : EndConsClass) : e ∈ allEnd := by cases e <;> decide

theorem roman_parts (s : Syl) (h : ValidSyl s) :
    romanSyl s = .ok (rOn s.iCons1 s.iCons2 ++ rRun s.vowel s.eCons ++ rFin s.eCons) := by
  obtain ⟨a, b, c, d, ha, hb, hc, hd, e⟩ := roman_valid s h
  rw [e, rOn, rRun, rFin, ha, hb, hc]
  have : d = (if s.eCons = .KOEY then b!"i" else if s.eCons = .KOEW then b!"o" else []) ++
      (if s.eCons = .KOEY ∨ s.eCons = .KOEW then [] else val (mapAt romanEndConsTbl s.eCons)) := by
    rw [hd]
    revert hd
    cases s.eCons <;> intro hd <;> (cases hd; rfl)
  rw [this]
  simp [val]

theorem rOn_cons : ∀ i ∈ allInit, ∀ c ∈ Spec.clusters, (rOn i c).all isC = true ∧ (i ≠ .A → rOn i c ≠ []) := by
  decide +kernel
theorem rRun_vow : ∀ v ∈ vowels, ∀ e ∈ allEnd, (rRun v e).all isV = true ∧ rRun v e ≠ [] := by decide +kernel
theorem rFin_cons : ∀ e ∈ allEnd, (rFin e).all isC = true := by decide +kernel

/-- Vowel letters not followed by a glide. -/
def plainRun (t : Str) : Bool := decide (t ∈ romanVowelTbl.map Prod.snd)

theorem plainRun_iff : ∀ v ∈ vowels, ∀ e ∈ allEnd, plainRun (rRun v e) = decide (e ≠ .KOEY ∧ e ≠ .KOEW) := by
  decide +kernel

/-- Where consonants between two vowels are divided. -/
def cutRoman (plain : Bool) (t : Str) : Str :=
  if plain then
    match t with
    | x :: y :: z =>
      if x = ch!"n" ∧ y = ch!"g" then [x, y]
      else if x ∈ b!"ktp" ∧ y = ch!"h" then []
      else if x ∈ b!"ktpnm" ∧ y ∈ b!"rlw" ∧ z = [] then []
      else if x ∈ b!"ktpnm" then [x] else []
    | _ => []
  else []

theorem cutRoman_check : ∀ e ∈ allEnd, ∀ i ∈ allInit, ∀ c ∈ Spec.clusters,
    (decide (i = .A) || decide (i = .NGA ∧ e = .NONE) || decide (i = .HA ∧ e ∈ [EndConsClass.KOK, .KOT, .KOP]) ||
      decide (i ∈ [InitConsSound.RA, .LA, .WA] ∧ c = SC.NONE ∧ e ∈ [EndConsClass.KOK, .KOT, .KOP, .KON, .KOM]) ||
      decide (cutRoman (decide (e ≠ .KOEY ∧ e ≠ .KOEW)) (rFin e ++ rOn i c) = rFin e)) = true := by decide +kernel

theorem cutRoman_table (e : EndConsClass) (he : e ∈ allEnd) (i : InitConsSound) (hi : i ∈ allInit) (c : Int)
    (hc : c ∈ Spec.clusters) (h1 : i ≠ .A) (h2 : ¬ (i = .NGA ∧ e = .NONE))
    (h3 : ¬ (i = .HA ∧ e ∈ [EndConsClass.KOK, .KOT, .KOP]))
    (h4 : ¬ (i ∈ [InitConsSound.RA, .LA, .WA] ∧ c = SC.NONE ∧ e ∈ [EndConsClass.KOK, .KOT, .KOP, .KON, .KOM])) :
    cutRoman (decide (e ≠ .KOEY ∧ e ≠ .KOEW)) (rFin e ++ rOn i c) = rFin e := by
  have := cutRoman_check e he i hi c hc
  rw [decide_eq_false h1, decide_eq_false h2, decide_eq_false h3, decide_eq_false h4] at this
  simpa only [Bool.false_or, decide_eq_true_eq] using this

theorem takeWhile_all {p : Nat → Bool} {a b : Str} (h : a.all p = true) (hb : ∀ x ∈ b.head?, p x = false) :
    (a ++ b).takeWhile p = a ∧ (a ++ b).dropWhile p = b := by
  induction a with
  | nil => cases b <;> simp_all
  | cons x a ih => simp only [List.all_cons, Bool.and_eq_true] at h; simp [h.1, ih h.2]

theorem span_inj {p : Nat → Bool} {a b a' b' : Str} (h : a.all p = true) (hb : ∀ x ∈ b.head?, p x = false)
    (h' : a'.all p = true) (hb' : ∀ x ∈ b'.head?, p x = false) (he : a ++ b = a' ++ b') : a = a' ∧ b = b' := by
  have e1 := takeWhile_all h hb
  have e2 := takeWhile_all h' hb'
  rw [he] at e1
  exact ⟨e1.1.symm.trans e2.1, e1.2.symm.trans e2.2⟩

theorem head_all {p : Nat → Bool} {a : Str} (h : a.all p = true) (x : Nat) (hx : x ∈ a.head?) : p x = true := by
  cases a with
  | nil => cases hx
  | cons y a => simp only [List.head?_cons, Option.mem_def, Option.some.injEq] at hx; subst hx; simp at h; exact h.1

theorem isC_not {x : Nat} (h : isC x = true) : isV x = false := by simp [isC] at h; exact h.1
theorem isV_not {x : Nat} (h : isV x = true) : isC x = false := by simp [isC, h]

/-- What follows the final consonant. -/
def after (txt : Syl → Str) (s : Syl) : List Syl → Str
  | [] => []
  | b :: r => (if needsHyphen s b then b!"-" else []) ++ hyphenated txt (b :: r)

theorem hyphenated_after (txt : Syl → Str) (s : Syl) (r : List Syl) : hyphenated txt (s :: r) = txt s ++ after txt s r := by
  cases r <;> simp [hyphenated, after]

section
variable {txt : Syl → Str}
  (htxt : ∀ s, ValidSyl s → txt s = rOn s.iCons1 s.iCons2 ++ rRun s.vowel s.eCons ++ rFin s.eCons)
include htxt

/-- A line: onset, vowel letters, final, rest. -/
theorem line_parts (s : Syl) (hs : ValidSyl s) (r : List Syl) : hyphenated txt (s :: r) =
    rOn s.iCons1 s.iCons2 ++ (rRun s.vowel s.eCons ++ (rFin s.eCons ++ after txt s r)) := by
  rw [hyphenated_after, htxt s hs]; simp

theorem line_ne_nil (s : Syl) (hs : ValidSyl s) (r : List Syl) : hyphenated txt (s :: r) ≠ [] := by
  rw [line_parts htxt s hs]
  have := (rRun_vow _ hs.vowel _ (mem_allEnd s.eCons)).2
  simp [this]

/-- A line begins with a letter; with a consonant unless the syllable has none. -/
theorem line_head (s : Syl) (hs : ValidSyl s) (r : List Syl) (x : Nat) (hx : x ∈ (hyphenated txt (s :: r)).head?) :
    x ≠ ch!"-" ∧ (s.iCons1 ≠ .A → isC x = true) := by
  rw [line_parts htxt s hs] at hx
  have ho := rOn_cons _ (mem_allInit hs.iCons1) _ hs.iCons2
  have hr := rRun_vow _ hs.vowel _ (mem_allEnd s.eCons)
  cases h : rOn s.iCons1 s.iCons2 with
  | cons y ys =>
    rw [h] at hx ho
    have hc := head_all ho.1 x (by simpa using hx)
    refine ⟨fun e => ?_, fun _ => hc⟩
    rw [e] at hc
    exact absurd hc (by decide)
  | nil =>
    rw [h] at hx ho
    refine ⟨fun e => ?_, fun hA => absurd rfl (ho.2 hA)⟩
    cases hr' : rRun s.vowel s.eCons with
    | nil => exact absurd hr' hr.2
    | cons y ys =>
      rw [hr'] at hx hr
      have hc := head_all hr.1 x (by simpa using hx)
      rw [e] at hc
      exact absurd hc (by decide)

/-- No vowel right after the final. -/
theorem after_head (s : Syl) (r : List Syl) (hr : ∀ x ∈ r, ValidSyl x) (x : Nat) (hx : x ∈ (after txt s r).head?) :
    isV x = false := by
  cases r with
  | nil => cases hx
  | cons b r =>
    rw [after] at hx
    split at hx
    · simp at hx; subst hx; decide
    · rename_i hh
      refine isC_not ((line_head htxt b (hr b (by simp)) r x (by simpa using hx)).2 fun e => hh ?_)
      simp [needsHyphen, e]

theorem tail_head (s : Syl) (r : List Syl) (hr : ∀ x ∈ r, ValidSyl x) (x : Nat)
    (hx : x ∈ (rFin s.eCons ++ after txt s r).head?) : isV x = false := by
  have hf := rFin_cons _ (mem_allEnd s.eCons)
  cases h : rFin s.eCons with
  | nil => rw [h] at hx; exact after_head htxt s r hr x hx
  | cons y ys => rw [h] at hx hf; exact isC_not (head_all hf x (by simpa using hx))

/-- The final, recovered from what follows the vowel letters. -/
def finOf (plain : Bool) (t : Str) : Str :=
  match t.dropWhile isC with
  | [] => t.takeWhile isC
  | c :: _ => if isV c then cutRoman plain (t.takeWhile isC) else t.takeWhile isC

theorem finOf_spec (s : Syl) (hs : ValidSyl s) (r : List Syl) (hr : ∀ x ∈ r, ValidSyl x)
    (hn : Neighbours (fun a b => ¬ Blurred a b) (s :: r)) :
    finOf (plainRun (rRun s.vowel s.eCons)) (rFin s.eCons ++ after txt s r) = rFin s.eCons := by
  have hf := rFin_cons _ (mem_allEnd s.eCons)
  rw [plainRun_iff _ hs.vowel _ (mem_allEnd s.eCons)]
  cases r with
  | nil =>
    have e := takeWhile_all (p := isC) (a := rFin s.eCons) (b := []) hf (by simp)
    simp only [after, finOf, e.1, e.2]
  | cons b r =>
    have hb := hr b (by simp)
    rw [after]
    split
    · have e := takeWhile_all (p := isC) (a := rFin s.eCons) (b := b!"-" ++ hyphenated txt (b :: r)) hf
        (by intro x hx; simp at hx; subst hx; decide)
      simp only [finOf, e.1, e.2]
      rfl
    · rename_i hh
      rw [line_parts htxt b hb]
      have ho := rOn_cons _ (mem_allInit hb.iCons1) _ hb.iCons2
      have hv := rRun_vow _ hb.vowel _ (mem_allEnd b.eCons)
      cases hr' : rRun b.vowel b.eCons with
      | nil => exact absurd hr' hv.2
      | cons y ys =>
        rw [hr'] at hv
        have hy : isV y = true := by have := hv.1; simp at this; exact this.1
        have e := takeWhile_all (p := isC) (a := rFin s.eCons ++ rOn b.iCons1 b.iCons2)
          (b := y :: (ys ++ (rFin b.eCons ++ after txt b r))) (by rw [List.all_append, hf, ho.1]; rfl)
          (by intro x hx; simp at hx; subst hx; exact isV_not hy)
        simp only [List.append_assoc, List.cons_append, List.nil_append] at e ⊢
        simp only [finOf, e.1, e.2, hy, if_true]
        have hh' : ¬ needsHyphen s b = true := hh
        simp only [needsHyphen, Bool.or_eq_true, decide_eq_true_eq, Bool.and_eq_true, not_or] at hh'
        have hbl : ¬ Blurred s b := hn.1
        simp only [Blurred, not_or] at hbl
        exact cutRoman_table _ (mem_allEnd s.eCons) _ (mem_allInit hb.iCons1) _ hb.iCons2 hh'.1 hh'.2 hbl.1 hbl.2

theorem line_inj (l l' : List Syl) (hl : ∀ s ∈ l, ValidSyl s) (hl' : ∀ s ∈ l', ValidSyl s)
    (hn : Neighbours (fun a b => ¬ Blurred a b) l) (hn' : Neighbours (fun a b => ¬ Blurred a b) l')
    (he : hyphenated txt l = hyphenated txt l') : l.map txt = l'.map txt := by
  induction l generalizing l' with
  | nil =>
    cases l' with
    | nil => rfl
    | cons s' r' => exact absurd he.symm (line_ne_nil htxt s' (hl' s' (by simp)) r')
  | cons s r ih =>
    cases l' with
    | nil => exact absurd he (line_ne_nil htxt s (hl s (by simp)) r)
    | cons s' r' =>
      have hs := hl s (by simp)
      have hs' := hl' s' (by simp)
      have hr : ∀ x ∈ r, ValidSyl x := fun x hx => hl x (by simp [hx])
      have hr' : ∀ x ∈ r', ValidSyl x := fun x hx => hl' x (by simp [hx])
      have vh : ∀ (s : Syl) (hs : ValidSyl s) (t : Str), ∀ x ∈ (rRun s.vowel s.eCons ++ t).head?, isC x = false := by
        intro s hs t x hx
        have hv := rRun_vow _ hs.vowel _ (mem_allEnd s.eCons)
        cases h : rRun s.vowel s.eCons with
        | nil => exact absurd h hv.2
        | cons y ys => rw [h] at hx hv; exact isV_not (head_all hv.1 x (by simpa using hx))
      have e0 := he
      rw [line_parts htxt s hs, line_parts htxt s' hs'] at e0
      obtain ⟨e1, e0⟩ := span_inj (rOn_cons _ (mem_allInit hs.iCons1) _ hs.iCons2).1 (vh s hs _)
        (rOn_cons _ (mem_allInit hs'.iCons1) _ hs'.iCons2).1 (vh s' hs' _) e0
      obtain ⟨e2, e0⟩ := span_inj (rRun_vow _ hs.vowel _ (mem_allEnd s.eCons)).1 (tail_head htxt s r hr)
        (rRun_vow _ hs'.vowel _ (mem_allEnd s'.eCons)).1 (tail_head htxt s' r' hr') e0
      have f1 := finOf_spec htxt s hs r hr hn
      have f2 := finOf_spec htxt s' hs' r' hr' hn'
      rw [e0, e2, f2] at f1
      rw [f1] at e0
      have e3 := List.append_cancel_left e0
      rw [List.map_cons, List.map_cons, htxt s hs, htxt s' hs', e1, e2, f1]
      congr 1
      cases r with
      | nil =>
        cases r' with
        | nil => rfl
        | cons b' r' =>
          have := line_ne_nil htxt b' (hr' b' (by simp)) r'
          simp [after, this] at e3
      | cons b r =>
        cases r' with
        | nil =>
          have := line_ne_nil htxt b (hr b (by simp)) r
          simp [after, this] at e3
        | cons b' r' =>
          have hb := line_head htxt b (hr b (by simp)) r
          have hb' := line_head htxt b' (hr' b' (by simp)) r'
          refine ih _ hr hr' hn.2 hn'.2 ?_
          rw [after, after] at e3
          by_cases q : needsHyphen s b = true <;> by_cases q' : needsHyphen s' b' = true
          · simpa [q, q'] using e3
          · rw [if_pos q, if_neg q'] at e3
            exact absurd rfl (hb' (ch!"-") (by rw [List.nil_append] at e3; rw [← e3]; rfl)).1
          · rw [if_neg q, if_pos q'] at e3
            exact absurd rfl (hb (ch!"-") (by rw [List.nil_append] at e3; rw [e3]; rfl)).1
          · simpa [q, q'] using e3

end

end Thpronun
