import Verif.Spec.Cli
import Mathlib.Tactic.ByContra
import Mathlib.Tactic.Cases
import Verif.Lemmas.ParserReading

/-! # Lemmas on option processing -/

namespace Thpronun
open Res Spec Cli

/-- The effect of one argument on the options. -/
def updOpt (o : Opts) (a : Str) : Opts :=
  ⟨o.optCnt + (if isOpt a then 1 else 0), if optLetter a == some ch!"d" then some (a.drop 2) else o.dictPath,
    o.isBreakWords && !(optLetter a == some ch!"n"),
    o.isJson || (optLetter a == some ch!"j" || optLetter a == some ch!"g"),
    o.isGroup || optLetter a == some ch!"g"⟩

theorem firstPass_good (first a : Str) (as : List Str) (o : Opts) (h : GoodArg a) :
    firstPass first (a :: as) o = firstPass first as (updOpt o a) := by
  by_cases ho : isOpt a = true
  · obtain ⟨c, hc, hl, hd⟩ := h ho
    obtain ⟨r, rfl⟩ : ∃ r, a = 45 :: c :: r := by
      match a, ho, hl with
      | b :: c' :: r, ho, hl =>
        have hb : b = 45 := by simpa [isOpt] using ho
        subst hb
        have : c' = c := by simpa [optLetter, isOpt] using hl
        subst this
        exact ⟨r, rfl⟩
      | [b], ho, hl => simp [optLetter, isOpt] at hl
      | [], ho, hl => simp [isOpt] at ho
    simp only [List.mem_cons, List.not_mem_nil, or_false] at hc
    rcases hc with rfl | rfl | rfl | rfl | rfl | rfl | rfl | rfl | rfl
    · have hr : r ≠ [] := by
        rintro rfl
        exact absurd (hd rfl) (by decide)
      rw [firstPass]
      simp [hr, updOpt, optLetter, isOpt]
    all_goals
      rw [firstPass]
      simp [updOpt, optLetter, isOpt]
  · have hupd : updOpt o a = o := by
      simp [updOpt, optLetter, ho]
    rw [hupd]
    match a, ho with
    | [], _ => rw [firstPass]; simp
    | b :: r, ho =>
      have hb : b ≠ 45 := by
        rintro rfl; exact ho (by simp [isOpt])
      rw [firstPass]
      intro r' h'
      exact hb (List.cons.inj h').1

theorem firstPass_bad (first a : Str) (as : List Str) (o : Opts) (h : ¬ GoodArg a) :
    firstPass first (a :: as) o = (
      if a[1]? = some ch!"-" then
        if a = b!"--version" then .ok (.inl .version)
        else if first.length < 2 then .ub
        else if first.drop 2 = b!"help" then .ok (.inl .usage)
        else .ok (.inl (.unknownLong a))
      else if a[1]? = some ch!"V" then .ok (.inl .version)
      else if a[1]? = some ch!"h" then .ok (.inl .usage)
      else if a[1]? = some ch!"d" then .ok (.inl .missingDict)
      else .ok (.inl (.unknownShort ((a[1]?).getD 0)))) := by
  have ho : isOpt a = true := by
    by_contra hn
    exact h fun h' => absurd h' hn
  match a, ho with
  | [b], ho =>
    have hb : b = 45 := by simpa [isOpt] using ho
    subst hb
    rw [firstPass]
    simp
  | b :: c :: r, ho =>
    have hb : b = 45 := by simpa [isOpt] using ho
    subst hb
    have hl : optLetter (45 :: c :: r) = some c := by simp [optLetter, isOpt]
    have hc : ∀ x ∈ b!"njgrstpw", c ≠ x := by
      rintro x hx rfl
      refine h fun _ => ⟨c, List.mem_cons_of_mem _ hx, hl, ?_⟩
      rintro rfl
      exact absurd hx (by decide)
    have hd : c = 100 → r = [] := by
      rintro rfl
      by_contra hr
      refine h fun _ => ⟨_, by decide, hl, fun _ => ?_⟩
      have := List.length_pos_of_ne_nil hr
      simp; omega
    simp only [List.mem_cons, List.not_mem_nil, or_false, forall_eq_or_imp, forall_eq] at hc
    obtain ⟨h1, h2, h3, h4, h5, h6, h7, h8⟩ := hc
    rw [firstPass]
    by_cases k1 : c = 45
    · subst k1
      by_cases k2 : r = b!"version"
      · subst k2; simp
      · simp [k2, skip2]
        by_cases k3 : 2 ≤ first.length
        · rw [if_pos k3, if_neg (by omega)]
          simp only [ok_bind]
        · rw [if_neg k3, if_pos (by omega)]
          rfl
    by_cases k2 : c = 86
    · subst k2; simp
    by_cases k3 : c = 104
    · subst k3; simp
    by_cases k4 : c = 100
    · subst k4; simp [hd rfl]
    simp [k1, k2, k3, k4, h1, h2, h3, h4, h5, h6, h7, h8]

theorem firstPass_bad_inl (first a : Str) (as : List Str) (o : Opts) (h : ¬ GoodArg a) (o') :
    firstPass first (a :: as) o ≠ .ok (.inr o') := by
  rw [firstPass_bad first a as o h]
  repeat' split
  all_goals simp

theorem firstPass_all (first : Str) (as : List Str) (o : Opts) (h : ∀ a ∈ as, GoodArg a) :
    firstPass first as o = .ok (.inr (as.foldl updOpt o)) := by
  induction as generalizing o with
  | nil => rfl
  | cons a as ih =>
    rw [firstPass_good _ _ _ _ (h a (by simp)), ih _ fun b hb => h b (by simp [hb])]
    rfl

theorem firstPass_split (first : Str) (as bs : List Str) (o : Opts) (h : ∀ a ∈ as, GoodArg a) :
    firstPass first (as ++ bs) o = firstPass first bs (as.foldl updOpt o) := by
  induction as generalizing o with
  | nil => rfl
  | cons a as ih =>
    rw [List.cons_append, firstPass_good _ _ _ _ (h a (by simp)), ih _ fun b hb => h b (by simp [hb])]
    rfl

theorem foldl_updOpt (as : List Str) (o : Opts) : as.foldl updOpt o =
    ⟨o.optCnt + (as.filter isOpt).length,
      (((as.filter fun a => optLetter a == some ch!"d").getLast?).map (List.drop 2)).or o.dictPath,
      o.isBreakWords && !given as ch!"n", o.isJson || (given as ch!"j" || given as ch!"g"),
      o.isGroup || given as ch!"g"⟩ := by
  induction as generalizing o with
  | nil => simp [given]
  | cons a as ih =>
    rw [List.foldl_cons, ih]
    simp only [updOpt, given, List.any_cons, Opts.mk.injEq]
    refine ⟨?_, ?_, ?_, ?_, ?_⟩
    · by_cases h : isOpt a = true <;> simp [h] <;> omega
    · by_cases h : (optLetter a == some ch!"d") = true
      · rw [if_pos h, List.filter_cons, if_pos h, List.getLast?_cons]
        cases (as.filter fun a => optLetter a == some ch!"d").getLast? <;> simp
      · rw [if_neg h, List.filter_cons, if_neg h]
    · rw [Bool.not_or, Bool.and_assoc]
    · cases o.isJson <;> cases (optLetter a == some ch!"j") <;> cases (optLetter a == some ch!"g") <;> simp
    · rw [Bool.or_assoc]

theorem format_make (c : Byte) (j g : Bool) : makeOutput c j g = format j g c := by
  cases j
  · unfold makeOutput format
    simp only [Bool.false_eq_true, if_false]
    split
    · next h => subst h; rfl
    · split
      · next h => subst h; rfl
      · split
        · next h => subst h; rfl
        · next h1 h2 h3 =>
          split <;> simp_all
  · cases g <;> rfl

theorem secondPass_eq (j g : Bool) (args : List Str) : secondPass j g args = (notations args).map (format j g) := by
  induction args with
  | nil => rfl
  | cons a as ih =>
    have skip : (∀ c ∈ b!"rstpw", optLetter a ≠ some c) → notations (a :: as) = notations as := by
      intro h
      unfold notations
      rw [List.filterMap_cons]
      cases ho : optLetter a with
      | none => rfl
      | some c =>
        simp only
        rw [List.filter_cons, if_neg]
        simp only [decide_eq_true_eq]
        intro hc
        exact h c hc ho
    match a, skip with
    | [], skip =>
      rw [secondPass.eq_def, skip (by intro c _; simp [optLetter, isOpt])]
      exact ih
    | [b], skip =>
      rw [skip (by intro c _; simp [optLetter, isOpt]), ← ih, secondPass.eq_def]
      split
      · cases ‹_ = _›
      · next h =>
        cases h
        split
        · next h => cases h
        · rfl
    | b :: c :: r, skip =>
      by_cases hb : b = 45
      · subst hb
        have hl : optLetter (45 :: c :: r) = some c := by simp [optLetter, isOpt]
        rw [secondPass.eq_def]
        simp only
        by_cases hc : c ∈ b!"rstpw"
        · rw [if_pos (by simpa using hc), ih, format_make]
          unfold notations
          rw [List.filterMap_cons, hl]
          simp only
          rw [List.filter_cons, if_pos (by simpa using hc)]
          rfl
        · rw [if_neg (by simpa using hc), ih, skip]
          intro x hx h
          rw [hl] at h; cases h; exact hc hx
      · rw [skip (by intro c _; simp [optLetter, isOpt, hb]), ← ih, secondPass.eq_def]
        split
        · cases ‹_ = _›
        · next h =>
          cases h
          split
          · next h => cases h; exact absurd rfl hb
          · rfl

theorem outputsOf_eq (j g : Bool) (args : List Str) :
    outputsOf j g args = (if notations args = [] then b!"trp" else notations args).map (format j g) := by
  unfold outputsOf
  rw [secondPass_eq]
  cases h : notations args with
  | nil => simp [format_make]
  | cons c cs => simp

theorem isWordArg_eq (a : Str) : isWordArg a = !isOpt a := by
  match a with
  | [] => rfl
  | b :: r =>
    unfold isWordArg
    split
    · next h => cases h; rfl
    · next h =>
      have : b ≠ 45 := by rintro rfl; exact h _ rfl
      simp [isOpt, this]

theorem first_bad {args : List Str} (h : ¬ ∀ a ∈ args, GoodArg a) :
    ∃ pre a post, args = pre ++ a :: post ∧ (∀ b ∈ pre, GoodArg b) ∧ ¬ GoodArg a := by
  induction args with
  | nil => exact absurd (fun a ha => by cases ha) h
  | cons b bs ih =>
    by_cases hb : GoodArg b
    · obtain ⟨pre, a, post, rfl, h1, h2⟩ := ih fun h' => h fun a ha => by
        rcases List.mem_cons.mp ha with rfl | ha
        · exact hb
        · exact h' a ha
      exact ⟨b :: pre, a, post, rfl, by simpa [hb] using h1, h2⟩
    · exact ⟨[], b, bs, rfl, by simp, hb⟩

theorem plan_bad (pre post stdin : List Str) (a : Str) (hpre : ∀ b ∈ pre, GoodArg b) (ha : ¬ GoodArg a) :
    plan (pre ++ a :: post) stdin = (
      let first := (pre ++ a :: post).headD []
      if a[1]? = some ch!"-" then
        if a = b!"--version" then .ok (.inl .version)
        else if first.length < 2 then .ub
        else if first.drop 2 = b!"help" then .ok (.inl .usage)
        else .ok (.inl (.unknownLong a))
      else if a[1]? = some ch!"V" then .ok (.inl .version)
      else if a[1]? = some ch!"h" then .ok (.inl .usage)
      else if a[1]? = some ch!"d" then .ok (.inl .missingDict)
      else .ok (.inl (.unknownShort ((a[1]?).getD 0)))) := by
  unfold plan
  rw [firstPass_split _ _ _ _ hpre, firstPass_bad _ _ _ _ ha]
  simp only
  repeat' split
  all_goals rfl

theorem outputsLoop_iff (d : PronunDAG) (outs : List OutKind) (o : Str) : outputsLoop d outs = .ok o ↔
    ∃ texts, List.Forall₂ (fun k t => k.run d = .ok t) outs texts ∧ o = texts.flatMap fun t => t ++ b!"\n" := by
  induction outs generalizing o with
  | nil =>
    constructor
    · intro h; cases h; exact ⟨[], .nil, rfl⟩
    · rintro ⟨texts, h, rfl⟩; cases h; rfl
  | cons k ks ih =>
    simp only [outputsLoop, bind_eq_ok, pure_eq, ih]
    constructor
    · rintro ⟨t, ht, r, ⟨ts, hts, rfl⟩, h⟩
      cases h
      exact ⟨t :: ts, .cons ht hts, by simp⟩
    · rintro ⟨texts, h, rfl⟩
      cases h with
      | @cons _ t _ ts ht hts => exact ⟨t, ht, _, ⟨ts, hts, rfl⟩, by simp⟩

end Thpronun
