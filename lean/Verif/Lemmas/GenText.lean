import Verif.Lemmas.GenFile
import Verif.Model.GenMain

/-! # The messages of the generator: helper lemmas for C77 -/

namespace Thpronun
open Res Spec Gen

theorem readInputT_fst (f : Str) : readInput f = (readInputT f >>= fun r => .ok r.1) := by
  unfold readInput readInputT
  generalize fgets 255 f = q
  obtain ⟨buf, rest⟩ := q
  simp only
  by_cases h1 : buf = []
  · rw [if_pos h1, if_pos h1]; rfl
  rw [if_neg h1, if_neg h1]
  generalize buf.takeWhile (fun x => decide (x ≠ 0)) = line
  by_cases h2 : line = []
  · rw [if_pos h2, if_pos h2]; rfl
  rw [if_neg h2, if_neg h2]
  generalize (if line.getLast? = some 10 then line.dropLast else line) = line'
  by_cases h3 : 9 ∉ line'
  · rw [if_pos h3, if_pos h3]; rfl
  rw [if_neg h3, if_neg h3]
  cases wordLoop 255 (line'.takeWhile fun x => decide (x ≠ 9)) <;> rfl

theorem genLoopT_fst (junk : Byte) : ∀ (fuel : Nat) (f : Str) (t : Trie) (b : DataBank),
    genLoop junk fuel f t b = (genLoopT junk fuel f t b >>= fun r => .ok r.1)
  | 0, _, _, _ => rfl
  | fuel + 1, f, t, b => by
    unfold genLoop genLoopT
    rw [readInputT_fst]
    cases readInputT f with
    | ok r =>
      obtain ⟨⟨r, rest⟩, text⟩ := r
      cases r with
      | none => rfl
      | some q =>
        obtain ⟨word, data⟩ := q
        simp only [ok_bind]
        cases dataBankAddData junk b data with
        | ok q =>
          obtain ⟨bank, idx⟩ := q
          simp only [ok_bind]
          cases trieStore t word idx with
          | none => rfl
          | some t' => exact genLoopT_fst junk fuel rest t' bank
        | throw e => rfl
        | ub => rfl
        | diverge => rfl
    | throw e => rfl
    | ub => rfl
    | diverge => rfl

theorem genDictT_fst (junk : Byte) (f : Str) : genDict junk f = (genDictT junk f >>= fun r => .ok r.1) :=
  genLoopT_fst junk _ f _ _

theorem genDictT_ok {junk : Byte} {f : Str} {r : GenResult} (h : genDict junk f = .ok r) : ∃ text, genDictT junk f = .ok (r, text) := by
  rw [genDictT_fst] at h
  obtain ⟨q, h1, h2⟩ := bind_eq_ok.mp h
  cases h2
  exact ⟨q.2, h1⟩

theorem genDictT_ub {junk : Byte} {f : Str} (h : genDict junk f = .ub) : genDictT junk f = .ub := by
  rw [genDictT_fst] at h
  cases hr : genDictT junk f with
  | ub => rfl
  | _ => rw [hr] at h; cases h

/-- What is printed while a line without newline is read. -/
def lineText (l : Str) : Str :=
  if 9 ∉ l then b!"Cannot find TAB delimeter.\nLine:" ++ l ++ b!"\n"
  else match wordLoop 255 (l.takeWhile (· ≠ 9)) with
    | none => b!"Fail to convert word '" ++ l.takeWhile (· ≠ 9) ++ b!"'.\n"
    | some _ => []

theorem lineText_some {l : Str} {q} (h : lineOf l = some q) : lineText l = [] := by
  unfold lineOf at h
  unfold lineText
  split at h
  · cases h
  · obtain ⟨w, hw, -⟩ := Option.map_eq_some_iff.mp h
    rename_i h9
    rw [if_neg h9, hw]

theorem lineText_none {l : Str} (h : lineOf l = none) : Complaint l (lineText l) := by
  unfold lineOf at h
  unfold lineText
  by_cases h9 : 9 ∈ l
  · rw [if_neg (not_not.mpr h9), Option.map_eq_none_iff] at h
    rw [if_neg (not_not.mpr h9), h]
    obtain ⟨p, q, hp, h9'⟩ := List.eq_append_cons_of_mem h9
    obtain ⟨t1, t2⟩ := takeWhile_append_stop (fun b : Nat => decide (b ≠ 9)) p 9 q
      (fun b hb => by simp; rintro rfl; exact h9' hb) (by simp)
    exact .inr ⟨p, q, hp, h9', by rw [hp, t1]⟩
  · rw [if_pos h9]
    exact .inl ⟨h9, rfl⟩

theorem complaint_ne {l t : Str} (h : Complaint l t) : t ≠ [] := by
  rintro rfl
  rcases h with ⟨-, h⟩ | ⟨f, d, -, -, h⟩ <;> simp at h

theorem readInputT_of {f buf rest line : Str} (hf : fgets 255 f = (buf, rest)) (hb : buf ≠ []) (h0 : beforeNul buf ≠ [])
    (hl : (if (beforeNul buf).getLast? = some 10 then (beforeNul buf).dropLast else beforeNul buf) = line) :
    readInputT f = .ok ((lineOf line, rest), lineText line) := by
  unfold readInputT
  rw [hf]
  simp only
  unfold beforeNul at h0 hl
  rw [if_neg hb, if_neg h0, hl, lineOf, lineText]
  split
  · rfl
  · cases wordLoop 255 (line.takeWhile fun x => decide (x ≠ 9)) <;> rfl

theorem readInputT_nul {f buf rest : Str} (hf : fgets 255 f = (buf, rest)) (h0 : buf.head? = some 0) : readInputT f = .ub := by
  unfold readInputT
  rw [hf]
  simp only
  cases buf with
  | nil => cases h0
  | cons b buf =>
    cases h0
    rw [if_neg (by simp), if_pos (by simp)]

theorem beforeNul_mem {l : Str} : ∀ b ∈ beforeNul l, b ∈ l := fun _ h => (List.takeWhile_sublist _).mem h

theorem beforeNul_line {l : Str} (h : 10 ∉ l) : (if (beforeNul (l ++ [10])).getLast? = some 10 then (beforeNul (l ++ [10])).dropLast
    else beforeNul (l ++ [10])) = beforeNul l := by
  by_cases h0 : 0 ∈ l
  · have : beforeNul (l ++ [10]) = beforeNul l := by
      obtain ⟨p, q, rfl, hp⟩ := List.eq_append_cons_of_mem h0
      have hs : ∀ r, beforeNul (p ++ 0 :: r) = p := fun r =>
        (takeWhile_append_stop (fun b : Nat => decide (b ≠ 0)) p 0 r (fun b hb => by simp; rintro rfl; exact hp hb) (by simp)).1
      rw [List.append_assoc, List.cons_append, hs, hs]
    rw [this, if_neg (last_ne fun hx => h (beforeNul_mem _ hx))]
  · have h1 : beforeNul (l ++ [10]) = l ++ [10] := List.takeWhile_eq_self_iff.mpr fun b hb => by
      simp only [ne_eq, decide_not, Bool.not_eq_eq_eq_not, Bool.not_true, decide_eq_false_iff_not]
      rintro rfl
      rcases List.mem_append.mp hb with hb | hb
      · exact h0 hb
      · simp at hb
    have h2 : beforeNul l = l := List.takeWhile_eq_self_iff.mpr fun b hb => by simp; rintro rfl; exact h0 hb
    rw [h1, h2]
    simp

theorem beforeNul_ne {l : Str} (h : l ≠ []) (h0 : l.head? ≠ some 0) : beforeNul l ≠ [] := by
  cases l with
  | nil => exact absurd rfl h
  | cons b l =>
    unfold beforeNul
    rw [List.takeWhile_cons_of_pos (by simp; rintro rfl; exact h0 rfl)]
    simp

/-- One step of the reader, with its messages. -/
theorem fileLines_stepT {f : Str} {ls : List Str} (h : FileLines f ls) :
    (f = [] ∧ ls = []) ∨ ∃ l f' ls', ls = l :: ls' ∧ (l.head? = some 0 → readInputT f = .ub) ∧
      (l.head? ≠ some 0 → readInputT f = .ok ((lineOf (beforeNul l), f'), lineText (beforeNul l))) ∧ FileLines f' ls' ∧
      f'.length < f.length ∧ (∀ b ∈ f', b ∈ f) ∧ (∀ b ∈ l, b ∈ f) ∧ l.length ≤ 255 := by
  cases h with
  | nil => exact .inl ⟨rfl, rfl⟩
  | line l f ls h hn r =>
    have hf := fgets_line 255 l f h (by omega)
    refine .inr ⟨l, f, ls, rfl, fun h0 => ?_, fun h0 => ?_, r, by simp; omega, by simp +contextual, by simp +contextual, by omega⟩
    · exact readInputT_nul hf (by cases l with | nil => cases h0 | cons => exact h0)
    · refine readInputT_of hf (by simp) (beforeNul_ne (by simp) ?_) (beforeNul_line h)
      cases l with
      | nil => simp
      | cons => exact h0
  | cut l f ls h hn r =>
    have hf := fgets_cut 255 l f h hn
    have hne : l ≠ [] := by rintro rfl; simp at hn
    refine .inr ⟨l, f, ls, rfl, readInputT_nul hf, fun h0 => ?_, r, by simp; omega, by simp +contextual, by simp +contextual, by omega⟩
    exact readInputT_of hf hne (beforeNul_ne hne h0) (if_neg (last_ne fun hx => h (beforeNul_mem _ hx)))
  | last _ h hn =>
    have hf := fgets_last 255 f h (by omega)
    have hne : f ≠ [] := by rintro rfl; simp at hn
    refine .inr ⟨f, [], [], rfl, readInputT_nul hf, fun h0 => ?_, .nil, hn.1, by simp, by simp, by omega⟩
    exact readInputT_of hf hne (beforeNul_ne hne h0) (if_neg (last_ne fun hx => h (beforeNul_mem _ hx)))

/-! ## Numbers -/

theorem hexDigits_spec : ∀ (n v : Nat), v < 16 ^ n → ∃ ds : List Nat, ds.length = n ∧ (∀ d ∈ ds, d < 16) ∧
    v = ds.foldl (fun v d => v * 16 + d) 0 ∧ List.Forall₂ (fun d x => b!"0123456789abcdef"[d]? = some x) ds (hexDigits n v)
  | 0, v, h => ⟨[], rfl, by simp, by simpa using h, .nil⟩
  | n + 1, v, h => by
    obtain ⟨ds, h1, h2, h3, h4⟩ := hexDigits_spec n (v / 16) (by rw [Nat.pow_succ] at h; omega)
    have hd : v % 16 < 16 := Nat.mod_lt _ (by omega)
    refine ⟨ds ++ [v % 16], by simp [h1], ?_, ?_, ?_⟩
    · intro d hm
      rcases List.mem_append.mp hm with hm | hm
      · exact h2 d hm
      · rw [List.mem_singleton.mp hm]; exact hd
    · rw [List.foldl_append, ← h3, List.foldl_cons, List.foldl_nil]
      omega
    · unfold hexDigits
      refine List.rel_append h4 (.cons ?_ .nil)
      have : ∀ d < 16, b!"0123456789abcdef"[d]? = some (hexDigit d) := by decide
      exact this _ hd

theorem hexLoop_eq (cs : List Nat) : hexLoop false cs = cs.flatMap fun c => ch!"," :: hexDigits 8 c := by
  induction cs with
  | nil => rfl
  | cons c cs ih => rw [hexLoop, ih, List.flatMap_cons]; simp

theorem hexLoop_join (cs : List Nat) : hexLoop true cs = joinWith ch!"," (cs.map (hexDigits 8)) := by
  cases cs with
  | nil => rfl
  | cons c cs =>
    rw [hexLoop, hexLoop_eq, if_pos rfl, List.nil_append]
    induction cs generalizing c with
    | nil => simp [joinWith]
    | cons c' cs ih =>
      rw [List.flatMap_cons, List.cons_append, ih c', List.map_cons, List.map_cons, List.map_cons]
      simp [joinWith]

theorem charAs_lt {s : Str} {c : Nat} (h : CharAs s c) : c < 16 ^ 8 := by
  obtain ⟨_, _, _, _, _, _, rfl⟩ := h
  exact Nat.mod_lt _ (by omega)

theorem wordAs_lt {s : Str} {w : List Nat} (h : WordAs s w) : ∀ c ∈ w, c < 16 ^ 8 := by
  induction h with
  | nil => simp
  | cons p s c w h _ ih =>
    intro x hx
    rcases List.mem_cons.mp hx with rfl | hx
    · exact charAs_lt h
    · exact ih x hx

theorem storeText_refusal {l : Str} {word : List Nat} {data : Str} (h : LineAs l ⟨word.takeWhile (· ≠ 0), data⟩) :
    Refusal ⟨word.takeWhile (· ≠ 0), data⟩ (storeText word data) := by
  obtain ⟨f, w, -, -, hw, he⟩ := h
  simp only at he
  refine ⟨(word.takeWhile (· ≠ 0)).map (hexDigits 8), ?_, ?_⟩
  · rw [List.forall₂_map_right_iff, List.forall₂_same]
    intro c hc
    rw [he] at hc
    exact hexDigits_spec 8 c (wordAs_lt hw c ((List.takeWhile_sublist _).mem hc))
  · unfold storeText
    simp only
    rw [hexLoop_join]
    simp [toStringInt]

theorem refusal_ne {e : DEntry} {t : Str} (h : Refusal e t) : t ≠ [] := by
  rintro rfl
  obtain ⟨hs, -, h⟩ := h
  simp at h

/-! ## The loop -/

/-- The lines before the first that is no entry. -/
theorem goodLinesN (ls : List Str) : ∃ good rest es, ls = good ++ rest ∧ List.Forall₂ (fun l e => LineAs (beforeNul l) e) good es ∧
    ∀ l ∈ rest.head?, ∀ e, ¬ LineAs (beforeNul l) e := by
  induction ls with
  | nil => exact ⟨[], [], [], rfl, .nil, by simp⟩
  | cons l ls ih =>
    by_cases hl : ∃ e, LineAs (beforeNul l) e
    · obtain ⟨e, he⟩ := hl
      obtain ⟨good, rest, es, h1, h2, h3⟩ := ih
      exact ⟨l :: good, rest, e :: es, by rw [h1]; rfl, .cons he h2, h3⟩
    · refine ⟨[], l :: ls, [], rfl, .nil, ?_⟩
      intro l' hl' e he
      simp only [List.head?_cons, Option.mem_def, Option.some.injEq] at hl'
      exact hl ⟨e, hl' ▸ he⟩

theorem genLoopT_file (junk : Byte) {f : Str} {ls : List Str} (hls : FileLines f ls)
    (hb : ∀ b ∈ f, b < 256) (fuel : Nat) (hf : f.length < fuel) (t : Trie) (b : DataBank) (old : List DEntry)
    (h : GenInv t b old) :
    ∃ good rest es, ls = good ++ rest ∧ List.Forall₂ (fun l e => LineAs (beforeNul l) e) good es ∧
      (∀ l ∈ rest.head?, ∀ e, ¬ LineAs (beforeNul l) e) ∧
      ((∀ e ∈ es, ThaiWord e.word) → (∀ l ∈ rest.head?, l.head? ≠ some 0) →
        ∃ t' b' text, genLoopT junk fuel f t b = .ok (.success t' b', text) ∧
        GenInv t' b' (es.reverse ++ old) ∧ (rest = [] → text = []) ∧ ∀ l ∈ rest.head?, Complaint (beforeNul l) text) ∧
      ((∀ e ∈ es, ThaiWord e.word) → (∃ l ∈ rest.head?, l.head? = some 0) → genLoopT junk fuel f t b = .ub) ∧
      (∀ p e q, es = p ++ e :: q → (∀ x ∈ p, ThaiWord x.word) → ¬ ThaiWord e.word →
        ∃ text, genLoopT junk fuel f t b = .ok (.failure, text) ∧ Refusal e text) := by
  induction fuel generalizing f ls t b old with
  | zero => omega
  | succ fuel ih =>
    rcases fileLines_stepT hls with ⟨rfl, rfl⟩ | ⟨l, f', ls', rfl, hru, hr, hls', hlt, hm, hl, hlen⟩
    · exact ⟨[], [], [], rfl, .nil, by simp, fun _ _ => ⟨t, b, [], rfl, h, fun _ => rfl, by simp⟩, by simp, by simp⟩
    have hl256 : ∀ b ∈ beforeNul l, b < 256 := fun x hx => hb x (hl x (beforeNul_mem x hx))
    have hlen' : (beforeNul l).length ≤ 255 := ((List.takeWhile_sublist _).length_le).trans hlen
    by_cases hnul : l.head? = some 0
    · have hno : ∀ e, ¬ LineAs (beforeNul l) e := by
        rintro e ⟨f, w, h1, -⟩
        cases l with
        | nil => cases hnul
        | cons x l => cases hnul; simp [beforeNul] at h1
      refine ⟨[], l :: ls', [], rfl, .nil, ?_, fun _ hn => absurd hnul (hn l rfl), fun _ _ => ?_, by simp⟩
      · intro l' hl'
        cases hl'
        exact hno
      · rw [genLoopT, hru hnul]; rfl
    replace hr := hr hnul
    have hr' : readInput f = .ok (lineOf (beforeNul l), f') := by rw [readInputT_fst, hr]; rfl
    rw [genLoopT, hr]
    simp only [Res.ok_bind]
    cases hlo : lineOf (beforeNul l) with
    | none =>
      refine ⟨[], l :: ls', [], rfl, .nil, ?_, fun _ _ => ⟨t, b, lineText (beforeNul l), rfl, h, by simp, ?_⟩, ?_, by simp⟩
      · intro l' hl' e he
        simp only [List.head?_cons, Option.mem_def, Option.some.injEq] at hl'
        subst hl'
        obtain ⟨w, hw, -⟩ := lineOf_complete hl256 hlen' he
        rw [hlo] at hw; cases hw
      · intro l' hl'
        simp only [List.head?_cons, Option.mem_def, Option.some.injEq] at hl'
        subst hl'
        exact lineText_none hlo
      · rintro - ⟨l', hl', h0'⟩
        cases hl'
        exact absurd h0' hnul
    | some q =>
      obtain ⟨w, d⟩ := q
      have hline := lineOf_sound hl256 hlen' hlo
      have hd : 0 ∉ d := readInput_data (hlo ▸ hr')
      obtain ⟨b1, h2, h3, _⟩ := addData_spec junk b _ d h.bank
      simp only [h2, Res.ok_bind]
      by_cases hall : ThaiWord (w.takeWhile (· ≠ 0))
      · have ht : ∃ t1, trieStore t w b.dataSize = some t1 := by
          have : (w.takeWhile (· ≠ 0)).all inAlphabet = true := by
            rw [List.all_eq_true]
            intro c hc
            simpa [inAlphabet] using hall c hc
          rw [trieStore]; simp only [this, if_true]; exact ⟨_, rfl⟩
        obtain ⟨t1, ht⟩ := ht
        rw [ht]
        obtain ⟨good, rest, es, h4, h5, h6, h7, h7u, h8⟩ := ih hls' (fun x hx => hb x (hm x hx))
          (by omega) t1 b1 _ (genInv_store h h3 hd ht)
        refine ⟨l :: good, rest, _ :: es, by rw [h4]; rfl, .cons hline h5, h6, fun ha hn => ?_,
          fun ha hn => h7u (fun e he => ha e (by simp [he])) hn, fun p e q he hp hn => ?_⟩
        · obtain ⟨t', b', text, h9, h10, h11⟩ := h7 (fun e he => ha e (by simp [he])) hn
          exact ⟨t', b', text, h9, by simpa using h10, h11⟩
        · cases p with
          | nil =>
            simp only [List.nil_append, List.cons.injEq] at he
            exact absurd (he.1 ▸ hall) hn
          | cons x p =>
            simp only [List.cons_append, List.cons.injEq] at he
            exact h8 p e q he.2 (fun y hy => hp y (by simp [hy])) hn
      · have ht : trieStore t w b.dataSize = none := by
          rw [trieStore, if_neg]
          rw [List.all_eq_true]
          intro hx
          exact hall fun c hc => by simpa [inAlphabet] using hx c hc
        rw [ht]
        obtain ⟨good, rest, es, h4, h5, h6⟩ := goodLinesN ls'
        refine ⟨l :: good, rest, _ :: es, by rw [h4]; rfl, .cons hline h5, h6, fun ha => ?_, fun ha => ?_, fun p e q he hp hn => ?_⟩
        · exact absurd (ha _ (List.mem_cons_self ..)) hall
        · exact absurd (ha _ (List.mem_cons_self ..)) hall
        · cases p with
          | nil =>
            simp only [List.nil_append, List.cons.injEq] at he
            obtain ⟨rfl, -⟩ := he
            exact ⟨_, rfl, storeText_refusal hline⟩
          | cons x p =>
            simp only [List.cons_append, List.cons.injEq] at he
            exact absurd (hp x (by simp)) (he.1 ▸ hall)

theorem readInputT_some {f rest : Str} {q} (h : readInput f = .ok (some q, rest)) : readInputT f = .ok ((some q, rest), []) := by
  rw [readInputT_fst] at h
  obtain ⟨⟨⟨r, rest'⟩, text⟩, h1, h2⟩ := bind_eq_ok.mp h
  simp only [ok.injEq, Prod.mk.injEq] at h2
  obtain ⟨rfl, rfl⟩ := h2
  rw [h1]
  congr 2
  unfold readInputT at h1
  generalize fgets 255 f = z at h1
  obtain ⟨buf, rest''⟩ := z
  simp only at h1
  by_cases h2 : buf = []
  · rw [if_pos h2] at h1; cases h1
  rw [if_neg h2] at h1
  generalize buf.takeWhile (fun x => decide (x ≠ 0)) = line at h1
  by_cases h3 : line = []
  · rw [if_pos h3] at h1; cases h1
  rw [if_neg h3] at h1
  generalize (if line.getLast? = some 10 then line.dropLast else line) = line' at h1
  by_cases h4 : 9 ∉ line'
  · rw [if_pos h4] at h1; cases h1
  rw [if_neg h4] at h1
  cases h5 : wordLoop 255 (line'.takeWhile fun x => decide (x ≠ 9)) with
  | none => rw [h5] at h1; cases h1
  | some w => rw [h5] at h1; cases h1; rfl

/-- On good lines nothing is printed. -/
theorem genLoopT_lines (junk : Byte) (es : List DEntry) (hes : ∀ e ∈ es, GoodEntry e) (fuel : Nat) (t : Trie) (b : DataBank)
    {t' b' text} (h : genLoopT junk fuel (es.flatMap entryLine) t b = .ok (.success t' b', text)) : text = [] := by
  induction fuel generalizing es t b with
  | zero => cases h
  | succ fuel ih =>
    cases es with
    | nil => cases h; rfl
    | cons e es =>
      rw [genLoopT, List.flatMap_cons, readInputT_some (readInput_line e (hes e (by simp)) _)] at h
      simp only [ok_bind] at h
      obtain ⟨⟨bank, idx⟩, -, h⟩ := bind_eq_ok.mp h
      simp only at h
      split at h
      · cases h
      · exact ih es (fun e he => hes e (by simp [he])) _ _ h

end Thpronun
