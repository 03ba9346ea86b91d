import Verif.Props.States
import Verif.Spec.Reading

/-! # Abbreviations and silenced letters: C46, C47 -/

namespace Thpronun
open Res Spec DAG

variable {ct : CType} {w : U16Str} {brk : List Int} {look : List Nat → Option Str} {p : Parser} {word : Str}
  {d : PronunDAG}

/-! ## C46: abbreviations -/

/-- Where an abbreviation stands and no dictionary word matches, a reading continues with the letter names and with
nothing else. -/
theorem abbr_step (hct : ct.Ok) {q t e : Nat} {l : Bool} {es : List (Entry Syl)} (hst : IsStop ct w brk q t)
    (hd : dictAt ct w look q t = []) (ha : IsAbbr ct w q t e) (c : Config) :
    Step ct w look brk ⟨q, l, es⟩ c ↔ ∃ new, abbrEdges w q e = .ok new ∧ c = ⟨e, false, es ++ new⟩ := by
  constructor
  · intro h
    cases h with
    | gap hg => exact absurd hst.token (hg.no q le_rfl hg.lt)
    | dict hst' hm' =>
      obtain rfl := hst.unique hst'
      rw [hd] at hm'; cases hm'
    | abbr hst' hd' ha' hn =>
      obtain rfl := hst.unique hst'
      obtain rfl := ha.unique hct ha'
      exact ⟨_, hn, rfl⟩
    | syl hst' hpl =>
      obtain rfl := hst.unique hst'
      exact absurd ⟨e, ha⟩ hpl.2
    | dot hst' hpl =>
      obtain rfl := hst.unique hst'
      exact absurd ⟨e, ha⟩ hpl.2
  · rintro ⟨new, hn, rfl⟩
    exact .abbr hst hd ha hn

theorem names_of (hct : ct.Ok) {q e : Nat} {cs : U16Str} (hc : ∀ c ∈ cs, ct.isCons c = true) (hne : cs ≠ [])
    (hw : ∀ i c, cs[i]? = some c → w[q + i]? = some c)
    (hn : (if w[e - 1]? = some ch!"." then e - q - 1 else e - q) = cs.length) :
    ∃ new, abbrEdges w q e = .ok new ∧ IsNames q e cs new := by
  have hlen : 0 < cs.length := List.length_pos_of_ne_nil hne
  have h0 : w[q]? ≠ some ch!"." := by
    intro h
    have h1 := hw 0 cs[0] (List.getElem?_eq_getElem hlen)
    rw [Nat.add_zero, h] at h1
    have h2 := hc _ (List.getElem_mem hlen)
    rw [← Option.some.inj h1, not_cons_dot hct] at h2
    cases h2
  let mk : Nat → Entry Syl := fun i =>
    let c := cs.getD i 0
    let s := match initConsSound c with | .ok s => s | _ => .INVALID
    let k := match initConsClass c with | .ok s => s | _ => .INVALID
    ⟨((q + i : Nat) : Int), if i + 1 = cs.length then e else ((q + i + 1 : Nat) : Int),
      letterName s k (if i + 1 = cs.length then e else ((q + i + 1 : Nat) : Int))⟩
  refine ⟨(List.range cs.length).map mk, ?_, by simp, ?_⟩
  · unfold abbrEdges
    rw [if_neg h0]
    simp only [hn]
    rw [mapRes_ok, List.forall₂_map_right_iff]
    refine List.forall₂_same.mpr fun i hi => ?_
    rw [List.mem_range] at hi
    obtain ⟨s, hs, -⟩ := C02_sound _ (cons_isConsonant hct (hc _ (List.getElem_mem hi)))
    obtain ⟨k, hk, -⟩ := C02_class _ (cons_isConsonant hct (hc _ (List.getElem_mem hi)))
    have hg : cs.getD i 0 = cs[i] := by simp [List.getD, List.getElem?_eq_getElem hi]
    have hst : strAt w (q + i) = .ok cs[i] := by
      unfold strAt
      rw [hw i _ (List.getElem?_eq_getElem hi)]
    simp only [mk, hg, hs, hk, hst, ok_bind]
    rfl
  · intro i c x hi hx
    have hil : i < cs.length := (List.getElem?_eq_some_iff.mp hi).1
    have hci : cs[i] = c := (List.getElem?_eq_some_iff.mp hi).2
    rw [List.getElem?_map, List.getElem?_range hil] at hx
    cases hx
    refine ⟨rfl, rfl, ?_⟩
    obtain ⟨s, hs, -, hs2⟩ := C02_sound _ (cons_isConsonant hct (hc _ (List.getElem_mem hil)))
    obtain ⟨k, hk, -, hk2⟩ := C02_class _ (cons_isConsonant hct (hc _ (List.getElem_mem hil)))
    have hg : cs.getD i 0 = cs[i] := by simp [List.getD, List.getElem?_eq_getElem hil]
    refine ⟨s, k, hci ▸ hs2, hci ▸ hk2, ?_⟩
    simp only [mk, hg, hs, hk, letterName]

/-- An abbreviation of one to four consonants with a period, or a single consonant: its reading is the letter names. -/
theorem abbr_names (hct : ct.Ok) {q t e : Nat} (ha : IsAbbr ct w q t e) (hdot : w[q]? ≠ some ch!".") :
    ∃ cs, cs ≠ [] ∧ cs.length ≤ 4 ∧ (∀ c ∈ cs, ct.isCons c = true) ∧
      ((piece w q e = cs ++ [ch!"."]) ∨ (piece w q e = cs ∧ cs.length = 1 ∧ e = t)) ∧
      ∃ new, abbrEdges w q e = .ok new ∧ IsNames q e cs new := by
  rcases ha.shape with ⟨n, hn, rfl, hc, hd⟩ | ⟨rfl, ht, c, hc, hcc⟩
  · have hn0 : 0 < n := by
      rcases Nat.eq_zero_or_pos n with rfl | h
      · exact absurd hd hdot
      · exact h
    have hlen : q + n < w.length := (List.getElem?_eq_some_iff.mp hd).1
    have hpl : (piece w q (q + n)).length = n := by simp [piece]; omega
    have hget : ∀ i, i < n → (piece w q (q + n))[i]? = w[q + i]? := by
      intro i hi
      unfold piece
      rw [List.getElem?_take_of_lt (by omega), List.getElem?_drop]
    refine ⟨piece w q (q + n), by intro h; rw [h] at hpl; simp at hpl; omega, by omega, ?_, .inl ?_, ?_⟩
    · intro x hx
      obtain ⟨i, hi, rfl⟩ := List.getElem_of_mem hx
      rw [hpl] at hi
      obtain ⟨c, h1, h2⟩ := hc (q + i) (by omega) (by omega)
      have := hget i hi
      rw [h1, List.getElem?_eq_getElem (by omega)] at this
      rw [Option.some.inj this]; exact h2
    · unfold piece
      rw [show q + n + 1 - q = n + 1 by omega, show q + n - q = n by omega, List.take_add_one, List.getElem?_drop, hd]
      rfl
    · refine names_of hct ?_ (by intro h; rw [h] at hpl; simp at hpl; omega) ?_ ?_
      · intro x hx
        obtain ⟨i, hi, rfl⟩ := List.getElem_of_mem hx
        rw [hpl] at hi
        obtain ⟨c, h1, h2⟩ := hc (q + i) (by omega) (by omega)
        have := hget i hi
        rw [h1, List.getElem?_eq_getElem (by omega)] at this
        rw [Option.some.inj this]; exact h2
      · intro i c hi
        have hil : i < n := by
          have := (List.getElem?_eq_some_iff.mp hi).1
          omega
        rw [← hget i hil]; exact hi
      · rw [Nat.add_sub_cancel, if_pos hd, hpl]; omega
  · refine ⟨[c], by simp, by simp, by simpa using hcc, .inr ⟨piece_one hc, rfl, ht⟩, names_of hct (by simpa using hcc) (by simp) ?_ ?_⟩
    · intro i x hi
      cases i with
      | zero => cases hi; exact hc
      | succ i => cases hi
    · rw [Nat.add_sub_cancel, if_neg hdot]; simp

/-- A word consisting of one to four consonants and a period, or of a single consonant, without dictionary match and
word break inside: the only pronunciation listed is the letter names in order. -/
theorem abbr_word (hct : ct.Ok) (hw : fromBytes word = .ok w) (hd : Holds p.exceptDict look) (hg : GoodLook look)
    {cs : U16Str} (hne : cs ≠ []) (h4 : cs.length ≤ 4) (hc : ∀ c ∈ cs, ct.isCons c = true)
    (hform : w = cs ++ [ch!"."] ∨ (w = cs ∧ cs.length = 1))
    (hb : ∀ b ∈ findBreaks w p.thBrk, b ≤ 0 ∨ b = w.length) (hm : dictAt ct w look 0 w.length = []) :
    ∃ d names, p.parseWord ct word = .ok d ∧ PronunDAG.sylStrings d 0 = .ok [names] ∧ names.length = cs.length ∧
      ∀ (i : Nat) c s, cs[i]? = some c → names[i]? = some s →
        IsLetterName c (if i + 1 = cs.length then (w.length : Int) else ((i + 1 : Nat) : Int)) s := by
  have hlen : 0 < cs.length := List.length_pos_of_ne_nil hne
  have hwne : w ≠ [] := by rcases hform with rfl | ⟨rfl, -⟩ <;> simp [hne]
  have hchar : ∀ c ∈ w, c = ch!"." ∨ ct.isCons c = true := by
    intro c h
    rcases hform with rfl | ⟨rfl, -⟩
    · rcases List.mem_append.mp h with h | h
      · exact .inr (hc c h)
      · exact .inl (List.mem_singleton.mp h)
    · exact .inr (hc c h)
  have hst : IsStop ct w (findBreaks w p.thBrk) 0 w.length := by
    refine isStop_whole hwne (fun c h => ?_) hb
    rcases hchar c h with rfl | h
    · simp [isThaiTokenChar]
    · simp [isThaiTokenChar, isWordChar, h]
  have hwi : ∀ i c, cs[i]? = some c → w[0 + i]? = some c := by
    intro i c h
    rw [Nat.zero_add]
    rcases hform with rfl | ⟨rfl, -⟩
    · rw [List.getElem?_append_left (List.getElem?_eq_some_iff.mp h).1, h]
    · exact h
  have ha : IsAbbr ct w 0 w.length w.length := by
    refine ⟨.inl rfl, le_rfl, ?_⟩
    rcases hform with rfl | ⟨rfl, h1⟩
    · refine .inl ⟨cs.length, h4, by simp, ?_, by simp⟩
      intro i _ hi
      rw [Nat.zero_add] at hi
      exact ⟨cs[i], by simpa using hwi i _ (List.getElem?_eq_getElem hi), hc _ (List.getElem_mem _)⟩
    · exact .inr ⟨by omega, rfl, w[0], List.getElem?_eq_getElem hlen, hc _ (List.getElem_mem _)⟩
  have hn : (if w[w.length - 1]? = some ch!"." then w.length - 0 - 1 else w.length - 0) = cs.length := by
    rcases hform with rfl | ⟨rfl, h1⟩
    · simp
    · have : w[w.length - 1]? ≠ some ch!"." := by
        intro h
        have h2 := hc _ (List.mem_of_getElem? h)
        rw [not_cons_dot hct] at h2
        cases h2
      rw [if_neg this]; rfl
  obtain ⟨new, hnew, hnames⟩ := names_of (w := w) (q := 0) (e := w.length) hct hc hne hwi hn
  obtain ⟨d, hd'⟩ := C37_partial hct p word w look hw hd (fun v data h => (hg v data h).imp fun _ h => h.1)
    (fun b h => by rcases hb b h with h | h <;> omega) (by
      intro c h hld
      have h1 := hct.ld c hld
      rcases hchar c (List.mem_of_getLast? h) with rfl | h
      · omega
      · have := hct.cons c h; omega)
  have hr := one_step (w := w) (brk := findBreaks w p.thBrk) (look := look) (ct := ct) hst.lt (P := fun es => es = new) (fun c => by
    rw [abbr_step hct hst hm ha, hnew]
    simp [List.nil_append])
  have hnn : new ≠ [] := by
    intro h
    have := hnames.1
    rw [h] at this; simp at this; omega
  have hpar := hd'
  rw [C37_word p word w hw] at hpar
  obtain ⟨path, hp, hf⟩ := single_reading hct hg hd hpar ((hr new).mpr rfl) (fun es h => (hr es).mp h) hnn
  have hval : path.map Entry.val = new.map Entry.val := by
    have hv : ∀ x ∈ new, ValidSyl x.val ∧ EndsAt x := by
      intro x hx
      obtain ⟨i, hi, rfl⟩ := List.getElem_of_mem hx
      have hi' : i < cs.length := hnames.1 ▸ hi
      obtain ⟨-, h2, snd, cls, h3, h4, h5⟩ := hnames.2 i cs[i] new[i] (List.getElem?_eq_getElem hi') (List.getElem?_eq_getElem hi)
      refine ⟨?_, by unfold EndsAt; rw [h5]⟩
      rw [h5]
      refine ⟨rfl, ?_, (by decide : SC.NONE ∈ Spec.clusters), (by decide : VW.AUU ∈ vowels), ?_⟩
      · rintro (rfl : snd = .INVALID)
        cases h3
      · show (if cls = InitConsClass.HIGH then Tone.CHATTAWA else .SAMAN) ≠ .INVALID
        split <;> decide
    clear hp hr hnew hnames hnn
    induction hf with
    | nil => rfl
    | @cons x y xs ys h1 h2 ih =>
      rw [List.map_cons, List.map_cons, ih fun z hz => hv z (by simp [hz]), carries_valid h1 (hv y (by simp)).1 (hv y (by simp)).2]
  refine ⟨d, new.map Entry.val, hd', by rw [hp, hval], by simp [hnames.1], ?_⟩
  intro i c s hi hs
  rw [List.getElem?_map, Option.map_eq_some_iff] at hs
  obtain ⟨x, hx, rfl⟩ := hs
  obtain ⟨-, h2, h3⟩ := hnames.2 i c x hi hx
  rw [h2, Nat.zero_add] at h3
  exact h3

/-- An abbreviation of a low and a high consonant: mid tone, rising tone. -/
example : ∃ d, (Parser.new (fun _ => []) false).parseWord thaiCType b!"พศ." = .ok d ∧
    PronunDAG.sylStrings d 0 = .ok [[⟨.PHA, SC.NONE, VW.AUU, .NONE, .SAMAN, [], 1⟩,
      ⟨.SA, SC.NONE, VW.AUU, .NONE, .CHATTAWA, [], 3⟩]] := by
  obtain ⟨d, hd, h⟩ := parsesTo_spec (n := 10) (w := u!"พศ.") (dict := none) (brk := [])
    (P := fun d => match PronunDAG.sylStrings d 0 with
      | .ok l => decide (l = [[⟨.PHA, SC.NONE, VW.AUU, .NONE, .SAMAN, [], 1⟩,
          ⟨.SA, SC.NONE, VW.AUU, .NONE, .CHATTAWA, [], 3⟩]])
      | _ => false) (by decide +kernel)
  refine ⟨d, hd, ?_⟩
  revert h
  cases PronunDAG.sylStrings d 0 <;> simp

/-! ## C47: silenced letters -/

/-- A consonant with thanthakhat at `q`, before the stop. -/
def SilentOne (ct : CType) (w : U16Str) (q t : Nat) : Prop :=
  q + 2 ≤ t ∧ ∃ c, ct.isCons c = true ∧ piece w q (q + 2) = [c, ch!"์"]

/-- A consonant, a character from `A` and thanthakhat at `q`, before the stop. -/
def SilentTwo (ct : CType) (w : U16Str) (A : U16 → Prop) (q t : Nat) : Prop :=
  q + 3 ≤ t ∧ ∃ c x, ct.isCons c = true ∧ A x ∧ piece w q (q + 3) = [c, x, ch!"์"]

theorem piece_two {q : Nat} {a b : U16} : piece w q (q + 2) = [a, b] ↔ w[q]? = some a ∧ w[q + 1]? = some b := by
  have key : ∀ (l : List Nat) (a b : Nat), l.take 2 = [a, b] ↔ l[0]? = some a ∧ l[1]? = some b := by
    intro l a b
    match l with
    | [] => simp
    | [x] => simp
    | x :: y :: l => simp
  unfold piece
  rw [Nat.add_sub_cancel_left, key]
  simp

theorem piece_three {q : Nat} {a b c : U16} :
    piece w q (q + 3) = [a, b, c] ↔ w[q]? = some a ∧ w[q + 1]? = some b ∧ w[q + 2]? = some c := by
  have key : ∀ (l : List Nat) (a b c : Nat), l.take 3 = [a, b, c] ↔ l[0]? = some a ∧ l[1]? = some b ∧ l[2]? = some c := by
    intro l a b c
    match l with
    | [] => simp
    | [x] => simp
    | [x, y] => simp
    | x :: y :: z :: l => simp
  unfold piece
  rw [Nat.add_sub_cancel_left, key]
  simp

theorem strAt_lt {q : Nat} (h : q < w.length) : strAt w q = .ok w[q] := by
  unfold strAt; rw [List.getElem?_eq_getElem h]

theorem ok_or_pos {P : Prop} {a b r : Nat} (h : P) : (Res.ok a = .ok r) ↔ (P ∧ r = a) ∨ (¬ P ∧ r = b) := by
  constructor
  · intro h'; cases h'; exact .inl ⟨h, rfl⟩
  · rintro (⟨-, rfl⟩ | ⟨h', -⟩)
    · rfl
    · exact absurd h h'

theorem ok_or_neg {P : Prop} {a b r : Nat} (h : ¬ P) : (Res.ok b = .ok r) ↔ (P ∧ r = a) ∨ (¬ P ∧ r = b) := by
  constructor
  · intro h'; cases h'; exact .inr ⟨h, rfl⟩
  · rintro (⟨h', -⟩ | ⟨-, rfl⟩)
    · exact absurd h' h
    · rfl

/-- `MatchKaranSimple`: past a consonant with thanthakhat, else unchanged. -/
theorem C47_simple {q t : Nat} (ht : t ≤ w.length) (r : Nat) :
    matchKaranSimple ct w q t = .ok r ↔ (SilentOne ct w q t ∧ r = q + 2) ∨ (¬ SilentOne ct w q t ∧ r = q) := by
  unfold matchKaranSimple SilentOne
  simp only [piece_two]
  by_cases h : q + 1 < t
  · have h0 : q < w.length := by omega
    have h1 : q + 1 < w.length := by omega
    rw [if_pos h, strAt_lt h0, strAt_lt h1]
    simp only [ok_bind, List.getElem?_eq_getElem h0, List.getElem?_eq_getElem h1, Option.some.injEq, pure_eq]
    have ht : q + 2 ≤ t := h
    by_cases ha : UTH.THANTHAKHAT = w[q + 1]
    · by_cases hb : ct.isCons w[q] = true
      · rw [if_pos ha, if_pos hb]
        exact ok_or_pos ⟨ht, _, hb, rfl, ha.symm⟩
      · rw [if_pos ha, if_neg hb]
        exact ok_or_neg (by rintro ⟨-, c, h, rfl, -⟩; exact hb h)
    · rw [if_neg ha]
      exact ok_or_neg (by rintro ⟨-, c, h, -, h'⟩; exact ha h'.symm)
  · rw [if_neg h]
    exact ok_or_neg (by rintro ⟨h', -⟩; omega)

theorem silent_two_dec {A : U16 → Prop} [DecidablePred A] {q t : Nat} (ht : t ≤ w.length) (r : Nat) :
    (if q + 2 < t then do
      if UTH.THANTHAKHAT = (← strAt w (q + 2)) then
        if ct.isCons (← strAt w q) then
          let c ← strAt w (q + 1)
          if A c then pure (q + 3) else pure q
        else pure q
      else pure q
    else .ok q) = .ok r ↔ (SilentTwo ct w A q t ∧ r = q + 3) ∨ (¬ SilentTwo ct w A q t ∧ r = q) := by
  unfold SilentTwo
  simp only [piece_three]
  by_cases h : q + 2 < t
  · have h0 : q < w.length := by omega
    have h1 : q + 1 < w.length := by omega
    have h2 : q + 2 < w.length := by omega
    rw [if_pos h, strAt_lt h0, strAt_lt h1, strAt_lt h2]
    simp only [ok_bind, List.getElem?_eq_getElem h0, List.getElem?_eq_getElem h1, List.getElem?_eq_getElem h2,
      Option.some.injEq, pure_eq]
    have ht : q + 3 ≤ t := h
    by_cases ha : UTH.THANTHAKHAT = w[q + 2]
    · by_cases hb : ct.isCons w[q] = true
      · by_cases hc : A w[q + 1]
        · rw [if_pos ha, if_pos hb, if_pos hc]
          exact ok_or_pos ⟨ht, _, _, hb, hc, rfl, rfl, ha.symm⟩
        · rw [if_pos ha, if_pos hb, if_neg hc]
          exact ok_or_neg (by rintro ⟨-, c, x, h, h', rfl, rfl, -⟩; exact hc h')
      · rw [if_pos ha, if_neg hb]
        exact ok_or_neg (by rintro ⟨-, c, x, h, h', rfl, rfl, -⟩; exact hb h)
    · rw [if_neg ha]
      exact ok_or_neg (by rintro ⟨-, c, x, h, h', -, -, h3⟩; exact ha h3.symm)
  · rw [if_neg h]
    exact ok_or_neg (by rintro ⟨h', -⟩; omega)

/-- `MatchKaranIU`: past a consonant with SARA I or SARA U and thanthakhat, else unchanged. -/
theorem C47_iu {q t : Nat} (ht : t ≤ w.length) (r : Nat) :
    matchKaranIU ct w q t = .ok r ↔
      (SilentTwo ct w (fun x => x = ch!"ิ" ∨ x = ch!"ุ") q t ∧ r = q + 3) ∨
      (¬ SilentTwo ct w (fun x => x = ch!"ิ" ∨ x = ch!"ุ") q t ∧ r = q) := by
  rw [← silent_two_dec ht]
  unfold matchKaranIU
  simp only [show ∀ c : Nat, (UTH.SARA_I = c ∨ UTH.SARA_U = c) ↔ (c = ch!"ิ" ∨ c = ch!"ุ") from
    fun c => or_congr eq_comm eq_comm]

/-- `MatchKaranComplex`: past one or two silenced letters (or a letter with SARA I, SARA U), else unchanged. -/
theorem C47_complex {q t : Nat} (ht : t ≤ w.length) (r : Nat) :
    matchKaranComplex ct w q t = .ok r ↔
      (SilentOne ct w q t ∧ r = q + 2) ∨
      (¬ SilentOne ct w q t ∧ SilentTwo ct w (fun x => ct.isCons x = true ∨ x = ch!"ิ" ∨ x = ch!"ุ") q t ∧ r = q + 3) ∨
      (¬ SilentOne ct w q t ∧ ¬ SilentTwo ct w (fun x => ct.isCons x = true ∨ x = ch!"ิ" ∨ x = ch!"ุ") q t ∧ r = q) := by
  unfold matchKaranComplex
  rw [bind_eq_ok]
  simp only [C47_simple ht]
  by_cases h1 : SilentOne ct w q t
  · simp only [h1, not_true_eq_false, false_and, or_false, true_and, exists_eq_left, pure_eq]
    rw [if_pos (by omega)]
    constructor
    · intro h; cases h; rfl
    · rintro rfl; rfl
  · have h2 := silent_two_dec (ct := ct) (q := q) (t := t) (A := fun x => ct.isCons x = true ∨ x = ch!"ิ" ∨ x = ch!"ุ") ht r
    simp only [h1, not_false_eq_true, true_and, false_and, false_or, exists_eq_left, ne_eq, not_true_eq_false, if_false]
    rw [← h2]
    simp only [show ∀ c : Nat, (UTH.SARA_I = c ∨ UTH.SARA_U = c) ↔ (c = ch!"ิ" ∨ c = ch!"ุ") from
      fun c => or_congr eq_comm eq_comm, pure_eq]

/-- The matchers always return, and never beyond the stop position. -/
theorem C47_bounds {q t : Nat} (ht : t ≤ w.length) :
    (∃ r, matchKaranSimple ct w q t = .ok r ∧ q ≤ r ∧ (r = q ∨ r ≤ t)) ∧
    (∃ r, matchKaranIU ct w q t = .ok r ∧ q ≤ r ∧ (r = q ∨ r ≤ t)) ∧
    (∃ r, matchKaranComplex ct w q t = .ok r ∧ q ≤ r ∧ (r = q ∨ r ≤ t)) := by
  simp only [C47_simple ht, C47_iu ht, C47_complex ht]
  refine ⟨?_, ?_, ?_⟩
  · by_cases h : SilentOne ct w q t
    · exact ⟨q + 2, .inl ⟨h, rfl⟩, by omega, .inr h.1⟩
    · exact ⟨q, .inr ⟨h, rfl⟩, le_rfl, .inl rfl⟩
  · by_cases h : SilentTwo ct w (fun x => x = ch!"ิ" ∨ x = ch!"ุ") q t
    · exact ⟨q + 3, .inl ⟨h, rfl⟩, by omega, .inr h.1⟩
    · exact ⟨q, .inr ⟨h, rfl⟩, le_rfl, .inl rfl⟩
  · by_cases h : SilentOne ct w q t
    · exact ⟨q + 2, .inl ⟨h, rfl⟩, by omega, .inr h.1⟩
    · by_cases h' : SilentTwo ct w (fun x => ct.isCons x = true ∨ x = ch!"ิ" ∨ x = ch!"ุ") q t
      · exact ⟨q + 3, .inr (.inl ⟨h, h', rfl⟩), by omega, .inr h'.1⟩
      · exact ⟨q, .inr (.inr ⟨h, h', rfl⟩), le_rfl, .inl rfl⟩

/-- จันทร์, สิทธิ์, พันธุ์: two letters are skipped, one with a vowel. -/
example : SilentTwo thaiCType u!"จันทร์" (fun x => thaiCType.isCons x = true ∨ x = ch!"ิ" ∨ x = ch!"ุ") 3 6 ∧
    SilentTwo thaiCType u!"พันธุ์" (fun x => x = ch!"ิ" ∨ x = ch!"ุ") 3 6 ∧ SilentOne thaiCType u!"การ์ด" 2 5 :=
  ⟨⟨by decide, ch!"ท", ch!"ร", by decide, by decide, by decide⟩,
   ⟨by decide, ch!"ธ", ch!"ุ", by decide, by decide, by decide⟩, ⟨by decide, ch!"ร", by decide, by decide⟩⟩

end Thpronun
