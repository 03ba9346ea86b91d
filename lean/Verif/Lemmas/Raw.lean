import Verif.Model.SylOut
import Verif.Model.SylString
import Verif.Model.Output
import Mathlib.Data.List.Forall2
import Mathlib.Tactic.Tauto
import Verif.Spec.Syl

/-! # Decimal numbers, splitting and raw notation: helper lemmas -/

namespace Thpronun

theorem isDigit_48 (n : Nat) (h : n < 10) : isDigitByte (48 + n) = true := by
  simp [isDigitByte]; omega

theorem digitsVal_natDecAux (f n : Nat) (h : n < f) :
    ∃ k, ∀ acc r, digitsVal acc (natDecAux f n ++ r) = digitsVal (acc * 10 ^ k + n) r := by
  induction f generalizing n with
  | zero => omega
  | succ f ih =>
    rw [natDecAux]
    split
    · rename_i hn
      refine ⟨1, fun acc r => ?_⟩
      simp [digitsVal, isDigit_48 n hn]
    · rename_i hn
      obtain ⟨k, hk⟩ := ih (n / 10) (by omega)
      refine ⟨k + 1, fun acc r => ?_⟩
      rw [List.append_assoc, hk]
      simp only [List.singleton_append, digitsVal, isDigit_48 (n % 10) (by omega), if_true]
      congr 1
      rw [Nat.pow_succ, Nat.add_mul]
      have : acc * 10 ^ k * 10 = acc * (10 ^ k * 10) := by rw [Nat.mul_assoc]
      omega

theorem digitsVal_natDec (n : Nat) (r : Str) (hr : ∀ b ∈ r.head?, isDigitByte b = false) :
    digitsVal 0 (natDec n ++ r) = n := by
  obtain ⟨k, hk⟩ := digitsVal_natDecAux (n + 1) n (by omega)
  rw [natDec, hk]
  cases r with
  | nil => simp [digitsVal]
  | cons b bs => simp [digitsVal, hr b (by simp)]

theorem natDecAux_digits (f n : Nat) : ∀ b ∈ natDecAux f n, isDigitByte b = true := by
  induction f generalizing n with
  | zero => simp [natDecAux]
  | succ f ih =>
    rw [natDecAux]
    split
    · simp; exact isDigit_48 _ (by omega)
    · intro b hb
      rcases List.mem_append.mp hb with hb | hb
      · exact ih _ b hb
      · simp only [List.mem_singleton] at hb; subst hb; exact isDigit_48 _ (by omega)

theorem natDec_digits (n : Nat) : ∀ b ∈ natDec n, isDigitByte b = true := natDecAux_digits _ _

theorem natDecAux_ne_nil (f n : Nat) (h : n < f) : natDecAux f n ≠ [] := by
  cases f with
  | zero => omega
  | succ f => rw [natDecAux]; split <;> simp

theorem natDec_ne_nil (n : Nat) : natDec n ≠ [] := natDecAux_ne_nil _ _ (by omega)

theorem isDigit_cases {b : Nat} (h : isDigitByte b = true) : 48 ≤ b ∧ b ≤ 57 := by
  simpa [isDigitByte] using h

theorem stoi_toString (i : Int) (h : Spec.IsInt i) : stoi (toStringInt i) = .ok i := by
  unfold Spec.IsInt at h
  cases i with
  | ofNat n =>
    obtain ⟨b, bs, hb⟩ := List.exists_cons_of_ne_nil (natDec_ne_nil n)
    have hd : isDigitByte b = true := natDec_digits n b (by simp [hb])
    have hd' := isDigit_cases hd
    have hv := digitsVal_natDec n [] (by simp)
    rw [List.append_nil, hb] at hv
    have hs : isSpaceByte b = false := by simp [isSpaceByte]; omega
    have h1 : b ≠ 45 := by omega
    have h2 : b ≠ 43 := by omega
    simp only [toStringInt, hb, stoi, List.dropWhile_cons, hs, Bool.false_eq_true, if_false,
      signPart, h1, h2, hd, if_true, hv]
    rw [if_neg]
    · rfl
    · simp at h ⊢; omega
  | negSucc n =>
    obtain ⟨b, bs, hb⟩ := List.exists_cons_of_ne_nil (natDec_ne_nil (n + 1))
    have hd : isDigitByte b = true := natDec_digits (n + 1) b (by simp [hb])
    have hv := digitsVal_natDec (n + 1) [] (by simp)
    rw [List.append_nil, hb] at hv
    simp only [toStringInt, hb, stoi, List.dropWhile_cons, show isSpaceByte 45 = false from rfl,
      Bool.false_eq_true, if_false, hd, if_true, hv, signPart]
    rw [if_neg]
    · congr 1
    · have := Int.negSucc_eq n
      omega

theorem toStringInt_chars (i : Int) : ∀ b ∈ toStringInt i, b = 45 ∨ (48 ≤ b ∧ b ≤ 57) := by
  cases i with
  | ofNat n => intro b hb; exact Or.inr (isDigit_cases (natDec_digits n b hb))
  | negSucc n =>
    intro b hb
    rcases List.mem_cons.mp hb with hb | hb
    · exact Or.inl hb
    · exact Or.inr (isDigit_cases (natDec_digits _ b hb))

theorem toStringInt_ne_nil (i : Int) : toStringInt i ≠ [] := by
  cases i with
  | ofNat n => exact natDec_ne_nil n
  | negSucc n => simp [toStringInt]

theorem digitsVal_foldl (acc : Nat) (ds r : Str) (h : ∀ b ∈ ds, isDigitByte b = true)
    (hr : ∀ b ∈ r.head?, isDigitByte b = false) :
    digitsVal acc (ds ++ r) = ds.foldl (fun acc b => acc * 10 + (b - 48)) acc := by
  induction ds generalizing acc with
  | nil => cases r with
    | nil => simp [digitsVal]
    | cons b bs => simp [digitsVal, hr b (by simp)]
  | cons b bs ih =>
    simp only [List.cons_append, digitsVal, h b (by simp), if_true, List.foldl_cons]
    exact ih _ (fun x hx => h x (by simp [hx]))

theorem isDigit_iff {b : Nat} : isDigitByte b = true ↔ 48 ≤ b ∧ b ≤ 57 := by simp [isDigitByte]
theorem isSpace_iff {b : Nat} : isSpaceByte b = true ↔ b = 32 ∨ (9 ≤ b ∧ b ≤ 13) := by
  simp [isSpaceByte]

theorem mem_takeWhile' {p : Nat → Bool} {l : List Nat} {x : Nat} (h : x ∈ l.takeWhile p) :
    p x = true := by
  induction l with
  | nil => simp at h
  | cons a as ih =>
    rw [List.takeWhile_cons] at h
    split at h
    · rcases List.mem_cons.mp h with rfl | h
      · assumption
      · exact ih h
    · simp at h

theorem takeWhile_dropWhile_head {p : Nat → Bool} (l : List Nat) :
    ∀ b ∈ (l.dropWhile p).head?, p b = false := by
  induction l with
  | nil => simp
  | cons a as ih =>
    rw [List.dropWhile_cons]
    split
    · exact ih
    · simp_all

/-- `stoi` accepts exactly the texts that start with a number. -/
theorem stoi_ok_iff (t : Str) : (∃ i, stoi t = .ok i) ↔ Spec.IsNumberText t := by
  constructor
  · rintro ⟨i, hi⟩
    refine ⟨t.takeWhile isSpaceByte, ?_⟩
    have ht := List.takeWhile_append_dropWhile (p := isSpaceByte) (l := t)
    have hws : ∀ b ∈ t.takeWhile isSpaceByte, b = 32 ∨ (9 ≤ b ∧ b ≤ 13) :=
      fun b hb => isSpace_iff.mp (mem_takeWhile' hb)
    revert hi
    unfold stoi
    dsimp only
    generalize t.dropWhile isSpaceByte = u at ht ⊢
    have hsign : ∃ sign, u = sign ++ (signPart u).2 ∧ (sign = [] ∨ sign = b!"-" ∨ sign = b!"+") ∧
        ((signPart u).1 = true ↔ sign = b!"-") := by
      cases u with
      | nil => exact ⟨[], by simp [signPart]⟩
      | cons b r =>
        by_cases h1 : b = 45
        · exact ⟨b!"-", by simp [signPart, h1]⟩
        · by_cases h2 : b = 43
          · exact ⟨b!"+", by simp [signPart, h2]⟩
          · exact ⟨[], by simp [signPart, h1, h2]⟩
    obtain ⟨sign, hu, hs, hneg⟩ := hsign
    generalize (signPart u).1 = neg at hneg ⊢
    generalize (signPart u).2 = v at hu ⊢
    cases v with
    | nil => simp
    | cons b bs =>
      simp only
      by_cases hb : isDigitByte b = true
      · have hv := List.takeWhile_append_dropWhile (p := isDigitByte) (l := b :: bs)
        have hds : ∀ x ∈ (b :: bs).takeWhile isDigitByte, isDigitByte x = true :=
          fun x hx => mem_takeWhile' hx
        have hval : digitsVal 0 (b :: bs) = Spec.decValue ((b :: bs).takeWhile isDigitByte) := by
          have := digitsVal_foldl 0 _ _ hds (takeWhile_dropWhile_head (p := isDigitByte) (b :: bs))
          rw [hv] at this
          exact this
        rw [if_pos hb, hval]
        by_cases hr : (if neg = true then -(Spec.decValue ((b :: bs).takeWhile isDigitByte) : Int)
            else (Spec.decValue ((b :: bs).takeWhile isDigitByte) : Int)) < -2147483648 ∨
            2147483647 < (if neg = true then
              -(Spec.decValue ((b :: bs).takeWhile isDigitByte) : Int)
            else (Spec.decValue ((b :: bs).takeWhile isDigitByte) : Int))
        · rw [if_pos hr]; simp
        · intro _
          refine ⟨sign, (b :: bs).takeWhile isDigitByte, (b :: bs).dropWhile isDigitByte, ?_, hws,
            hs, ?_, fun x hx => isDigit_iff.mp (hds x hx), ?_, ?_⟩
          · rw [List.append_assoc, hv, List.append_assoc, ← hu, ht]
          · simp [List.takeWhile_cons, hb]
          · intro x hx h
            have := takeWhile_dropWhile_head (p := isDigitByte) _ x hx
            rw [← Bool.not_eq_true, isDigit_iff] at this
            exact this h
          · have hr' := not_or.mp hr
            by_cases hm : sign = b!"-"
            · rw [if_pos hm]
              rw [if_pos (hneg.mpr hm)] at hr'
              constructor <;> omega
            · rw [if_neg hm]
              rw [if_neg (fun h => hm (hneg.mp h))] at hr'
              constructor <;> omega
      · simp [hb]
  · rintro ⟨ws, sign, ds, rest, rfl, hws, hs, hne, hds, hrest, hint⟩
    obtain ⟨d, ds', rfl⟩ := List.exists_cons_of_ne_nil hne
    have hd := hds d (by simp)
    have hdd : isDigitByte d = true := isDigit_iff.mpr hd
    have hdrop : (ws ++ sign ++ (d :: ds') ++ rest).dropWhile isSpaceByte
        = sign ++ (d :: ds') ++ rest := by
      rw [List.append_assoc, List.append_assoc, List.dropWhile_append_of_pos
        (fun b hb => isSpace_iff.mpr (hws b hb)), List.append_assoc]
      rcases hs with rfl | rfl | rfl
      · have : isSpaceByte d = false := by
          rw [← Bool.not_eq_true, isSpace_iff]; omega
        simp [List.dropWhile_cons, this]
      · rfl
      · rfl
    have hsp : signPart (sign ++ (d :: ds') ++ rest) = (decide (sign = b!"-"), (d :: ds') ++ rest) := by
      rcases hs with rfl | rfl | rfl
      · have h1 : d ≠ 45 := by omega
        have h2 : d ≠ 43 := by omega
        simp [signPart, h1, h2]
      · rfl
      · rfl
    have hval : digitsVal 0 ((d :: ds') ++ rest) = Spec.decValue (d :: ds') :=
      digitsVal_foldl 0 _ _ (fun b hb => isDigit_iff.mpr (hds b hb)) (fun b hb => by
        rw [← Bool.not_eq_true, isDigit_iff]; exact hrest b hb)
    unfold stoi
    rw [hdrop]
    simp only [hsp, hval, List.cons_append, hdd, if_true]
    rw [← List.cons_append, hval]
    unfold Spec.IsInt at hint
    rw [if_neg]
    · simp
    · rw [not_or]
      by_cases hm : sign = b!"-" <;> simp only [hm, decide_true, decide_false, if_true, if_false,
        Bool.false_eq_true] at hint ⊢ <;> omega

/-! ## Splitting -/

namespace SylString

theorem splitOn_ne_nil (sep : Byte) (s : Str) : splitOn sep s ≠ [] := by
  cases s with
  | nil => simp [splitOn]
  | cons c cs => rw [splitOn]; split <;> (try split) <;> simp

theorem splitOn_append (sep : Byte) (a r : Str) (h : sep ∉ a) :
    splitOn sep (a ++ sep :: r) = a :: splitOn sep r := by
  induction a with
  | nil => simp [splitOn]
  | cons c cs ih =>
    simp only [List.mem_cons, not_or] at h
    rw [List.cons_append, splitOn, if_neg (Ne.symm h.1), ih h.2]

theorem splitOn_self (sep : Byte) (a : Str) (h : sep ∉ a) : splitOn sep a = [a] := by
  induction a with
  | nil => simp [splitOn]
  | cons c cs ih =>
    simp only [List.mem_cons, not_or] at h
    rw [splitOn, if_neg (Ne.symm h.1), ih h.2]

open Spec (joinWith)

theorem splitOn_joinWith (sep : Byte) (l : List Str) (hne : l ≠ []) (h : ∀ a ∈ l, sep ∉ a) :
    splitOn sep (joinWith sep l) = l := by
  induction l with
  | nil => exact absurd rfl hne
  | cons a r ih =>
    cases r with
    | nil => exact splitOn_self sep a (h a (by simp))
    | cons b r =>
      rw [joinWith, splitOn_append _ _ _ (h a (by simp)), ih (by simp) (fun x hx => h x (by simp [hx]))]

end SylString

/-! ## Raw notation of valid syllables -/

def rawI : InitConsSound → Nat
  | .KA => ch!"k" | .KHA => ch!"c" | .NGA => ch!"g" | .JA => ch!"j" | .CHA => ch!"J" | .YA => ch!"y"
  | .DA => ch!"d" | .TA => ch!"t" | .THA => ch!"T" | .NA => ch!"n" | .BA => ch!"b" | .PA => ch!"p"
  | .PHA => ch!"P" | .FA => ch!"f" | .MA => ch!"m" | .RA => ch!"r" | .LA => ch!"l" | .WA => ch!"w"
  | .SA => ch!"s" | .HA => ch!"h" | .A => ch!"?" | .INVALID => ch!"*"

def rawE : EndConsClass → Nat
  | .NONE => ch!"_" | .KOK => ch!"k" | .KOT => ch!"t" | .KOP => ch!"p" | .KONG => ch!"g"
  | .KON => ch!"n" | .KOM => ch!"m" | .KOEY => ch!"y" | .KOEW => ch!"w"

def rawT : Tone → Nat
  | .SAMAN => ch!"0" | .EK => ch!"1" | .THO => ch!"2" | .TRI => ch!"3" | .CHATTAWA => ch!"4"
  | .INVALID => ch!"*"

open Spec

theorem rawSyl_valid (s : Syl) (h : ValidSyl s) :
    rawSyl s = .ok ([rawI s.iCons1, s.iCons2.toNat, s.vowel.toNat, rawE s.eCons, rawT s.tone]
      ++ b!"@" ++ toStringInt s.endPos) := by
  obtain ⟨h0, h1, h2, h3, h4⟩ := h
  cases s with
  | mk i1 i2 v e t l p =>
  simp only at h0 h1 h2 h3 h4
  subst h0
  have hb : ceq (⟨i1, i2, v, e, t, [], p⟩ : Syl) Syl.blank = false := by
    simp [ceq, Syl.eq, Syl.isLiteral, Syl.blank, Syl.blankAt, h1]
  have ha : mapAt rawInitConsTbl i1 = .ok [rawI i1] := by
    cases i1 <;> first | rfl | exact absurd rfl h1
  have h2' : mapAt rawSecInitConsTbl i2 = .ok [i2.toNat] :=
    (by decide +kernel : ∀ x ∈ clusters, mapAt rawSecInitConsTbl x = .ok [x.toNat]) i2 h2
  have h3' : mapAt rawVowelTbl v = .ok [v.toNat] :=
    (by decide +kernel : ∀ x ∈ vowels, mapAt rawVowelTbl x = .ok [x.toNat]) v h3
  have h5' : mapAt rawEndConsTbl e = .ok [rawE e] := by cases e <;> rfl
  have h4' : mapAt rawToneTbl t = .ok [rawT t] := by
    cases t <;> first | rfl | exact absurd rfl h4
  simp [rawSyl, hb, Syl.isLiteral, ha, h2', h3', h5', h4']

theorem sylOfDesc_raw (s : Syl) (h : ValidSyl s) (hi : IsInt s.endPos) (dflt : Int) :
    sylOfDesc ([rawI s.iCons1, s.iCons2.toNat, s.vowel.toNat, rawE s.eCons, rawT s.tone]
      ++ b!"@" ++ toStringInt s.endPos) dflt = .ok s := by
  obtain ⟨h0, h1, h2, h3, h4⟩ := h
  cases s with
  | mk i1 i2 v e t l p =>
  simp only at h0 h1 h2 h3 h4 hi ⊢
  subst h0
  have ha : initConsCodeToSound (rawI i1) = .ok i1 := by cases i1 <;> rfl
  have h2' : signedChar i2.toNat = i2 :=
    (by decide +kernel : ∀ x ∈ clusters, signedChar x.toNat = x) i2 h2
  have h3' : signedChar v.toNat = v :=
    (by decide +kernel : ∀ x ∈ vowels, signedChar x.toNat = x) v h3
  have h5' : endConsCodeToClass (rawE e) = .ok e := by cases e <;> rfl
  have h4' : toneCodeToTone (rawT t) = .ok t := by cases t <;> rfl
  have hl : 0 < (toStringInt p).length := List.length_pos_iff.mpr (toStringInt_ne_nil p)
  simp [sylOfDesc, strIdx, ha, h2', h3', h5', h4', stoi_toString p hi, hl]

theorem raw_no_sep (s : Syl) (h : ValidSyl s) (sep : Byte) (hs : sep = ch!"," ∨ sep = ch!";") :
    sep ∉ [rawI s.iCons1, s.iCons2.toNat, s.vowel.toNat, rawE s.eCons, rawT s.tone]
      ++ b!"@" ++ toStringInt s.endPos := by
  obtain ⟨h0, h1, h2, h3, h4⟩ := h
  cases s with
  | mk i1 i2 v e t l p =>
  simp only at h2 h3 ⊢
  have h1' : sep ≠ rawI i1 := by rcases hs with rfl | rfl <;> cases i1 <;> decide
  have h2' : sep ≠ i2.toNat := by
    have := (by decide +kernel : ∀ x ∈ clusters, x.toNat ≠ 44 ∧ x.toNat ≠ 59) i2 h2
    omega
  have h3' : sep ≠ v.toNat := by
    have := (by decide +kernel : ∀ x ∈ vowels, x.toNat ≠ 44 ∧ x.toNat ≠ 59) v h3
    omega
  have h4' : sep ≠ rawE e := by rcases hs with rfl | rfl <;> cases e <;> decide
  have h5' : sep ≠ rawT t := by rcases hs with rfl | rfl <;> cases t <;> decide
  have h6' : sep ∉ toStringInt p := fun hm => by
    have := toStringInt_chars p sep hm
    omega
  simp only [List.mem_append, List.mem_cons, List.not_mem_nil, or_false, not_or]
  refine ⟨⟨⟨h1', h2', h3', h4', h5'⟩, ?_⟩, h6'⟩
  rcases hs with rfl | rfl <;> decide

theorem delimStr_raw (l : SylString) (h : ∀ s ∈ l, ValidSyl s) :
    ∃ ts : List Str, List.Forall₂ (fun s t => rawSyl s = .ok t) l ts ∧
      delimStr rawSyl ch!"," l = .ok (joinWith ch!"," ts) := by
  have blank : ∀ s, ValidSyl s → ceq s Syl.blank = false := fun s hs => by
    have := hs.iCons1
    simp [ceq, Syl.eq, Syl.isLiteral, Syl.blank, Syl.blankAt, hs.literal, this]
  have key : ∀ l : SylString, (∀ s ∈ l, ValidSyl s) → ∃ ts : List Str,
      List.Forall₂ (fun s t => rawSyl s = .ok t) l ts ∧
      delimLoop rawSyl ch!"," false l = .ok (ts.flatMap (fun t => ch!"," :: t)) := by
    intro l
    induction l with
    | nil => intro _; exact ⟨[], .nil, rfl⟩
    | cons s ss ih =>
      intro h
      obtain ⟨ts, hf, hd⟩ := ih (fun x hx => h x (by simp [hx]))
      have hs := rawSyl_valid s (h s (by simp))
      refine ⟨_ :: ts, .cons hs hf, ?_⟩
      simp [delimLoop, blank s (h s (by simp)), hs, hd]
  cases l with
  | nil => exact ⟨[], .nil, rfl⟩
  | cons s ss =>
    obtain ⟨ts, hf, hd⟩ := key ss (fun x hx => h x (by simp [hx]))
    have hs := rawSyl_valid s (h s (by simp))
    refine ⟨_ :: ts, .cons hs hf, ?_⟩
    have hj : ∀ (a : Str) (ts : List Str),
        joinWith ch!"," (a :: ts) = a ++ ts.flatMap (fun t => ch!"," :: t) := by
      intro a ts
      induction ts generalizing a with
      | nil => simp [joinWith]
      | cons b bs ih => simp [joinWith, ih]
    simp [delimStr, delimLoop, blank s (h s (by simp)), hs, hd, hj]

theorem mapRes_forall₂ {α β} {f : α → Res β} {as : List α} {bs : List β}
    (h : List.Forall₂ (fun a b => f a = .ok b) as bs) : SylString.mapRes f as = .ok bs := by
  induction h with
  | nil => rfl
  | cons h _ ih => simp [SylString.mapRes, h, ih]

theorem mapAt_ok_iff {κ ν} [DecidableEq κ] (tbl : List (κ × ν)) (k : κ) :
    (∃ v, mapAt tbl k = .ok v) ↔ k ∈ tbl.map Prod.fst := by
  induction tbl with
  | nil => simp [mapAt]
  | cons a t ih =>
    by_cases h : a.1 = k
    · simp [mapAt, h]
    · have h' : ¬ k = a.1 := fun e => h e.symm
      simp [mapAt, h, h', ih]

theorem mapAt_cases {κ ν} [DecidableEq κ] (tbl : List (κ × ν)) (k : κ) :
    (∃ v, mapAt tbl k = .ok v) ∨ mapAt tbl k = .throw .outOfRange := by
  induction tbl with
  | nil => simp [mapAt]
  | cons a t ih =>
    by_cases h : a.1 = k
    · simp [mapAt, h]
    · simp [mapAt, h, ih]

theorem stoi_ne (t : Str) : stoi t ≠ .ub ∧ stoi t ≠ .diverge := by
  unfold stoi
  dsimp only
  generalize signPart _ = u
  obtain ⟨neg, v⟩ := u
  cases v with
  | nil => simp
  | cons b bs =>
    dsimp only
    generalize (if neg = true then _ else _ : Int) = n
    by_cases h1 : isDigitByte b = true
    · by_cases h2 : n < -2147483648 ∨ 2147483647 < n <;> simp [h1, h2]
    · simp [h1]

theorem stoi_cases (t : Str) : (∃ v, stoi t = .ok v) ∨ ∃ e, stoi t = .throw e := by
  cases h : stoi t with
  | ok v => exact .inl ⟨v, rfl⟩
  | throw e => exact .inr ⟨e, rfl⟩
  | ub => exact absurd h (stoi_ne t).1
  | diverge => exact absurd h (stoi_ne t).2

end Thpronun
