import Verif.Spec.Dict
import Verif.Lemmas.Utf
import Mathlib.Data.List.TakeWhile
import Mathlib.Tactic.Conv
import Mathlib.Order.Defs.LinearOrder

/-! # Lemmas about the dictionary and its generator -/

namespace Thpronun
open Spec Gen

/-! ## Size field -/

theorem readInt32_write (v : Int) (h : -0x80000000 ≤ v ∧ v < 0x80000000) (r : Str) :
    Dict.readInt32 (fileWriteInt32 v ++ r) = some (v, r) := by
  unfold fileWriteInt32
  simp only [List.cons_append, List.nil_append, Dict.readInt32, Option.some.injEq, Prod.mk.injEq, and_true]
  generalize hn : (v % 0x100000000).toNat = n
  have h1 : n < 0x100000000 := by omega
  have h2 : n / 0x1000000 % 0x100 * 0x1000000 + n / 0x10000 % 0x100 * 0x10000 + n / 0x100 % 0x100 * 0x100
      + n % 0x100 = n := by omega
  rw [h2, Dict.toInt32]
  split <;> omega

/-! ## Data bank -/

/-- The contents of the bank after adding the data, newest first. -/
def bankOf : List Str → Str
  | [] => []
  | d :: ds => bankOf ds ++ (d ++ [0])

def BankInv (b : DataBank) (ds : List Str) : Prop :=
  b.dataSize ≤ b.pool.length ∧ b.pool.take b.dataSize = bankOf ds

theorem BankInv.size {b : DataBank} {ds} (h : BankInv b ds) : (bankOf ds).length = b.dataSize := by
  rw [← h.2, List.length_take]; have := h.1; omega

theorem bankInv_new (junk) : BankInv (newDataBank junk) [] := by
  unfold BankInv newDataBank; simp only [List.take_zero, bankOf, Nat.zero_le, and_self]

theorem addData_spec (junk : Byte) (b : DataBank) (ds : List Str) (d : Str) (h : BankInv b ds) :
    ∃ b', dataBankAddData junk b d = .ok (b', b.dataSize) ∧ BankInv b' (d :: ds) ∧
      b'.dataSize = b.dataSize + d.length + 1 := by
  have key : ∀ pool : Str, b.dataSize + (d.length + 1) ≤ pool.length →
      pool.take b.dataSize = bankOf ds →
      ∃ b', (writeAt pool b.dataSize (d ++ [0]) >>= fun p =>
          pure ((⟨p, b.dataSize + (d.length + 1)⟩ : DataBank), b.dataSize)) = .ok (b', b.dataSize) ∧
        BankInv b' (d :: ds) ∧ b'.dataSize = b.dataSize + d.length + 1 := by
    intro pool hl ht
    have hl' : (bankOf ds).length = b.dataSize := h.size
    refine ⟨_, by rw [writeAt, if_pos (by simpa using hl)]; rfl, ⟨?_, ?_⟩, by show b.dataSize + (d.length + 1) = _; omega⟩
    · simp only [List.length_append, List.length_take, List.length_drop, List.length_cons, List.length_nil]
      omega
    · simp only [bankOf]
      rw [ht, List.take_append_of_le_length (by simp; omega), List.take_of_length_le (by simp; omega)]
  unfold dataBankAddData dataBankAllocate
  simp only
  split
  · rename_i hgt
    apply key
    · simp only [DataBank.poolSize, List.length_append, List.length_replicate] at hgt ⊢
      omega
    · rw [List.take_append_of_le_length h.1]; exact h.2
  · rename_i hgt
    apply key
    · simp only [DataBank.poolSize] at hgt ⊢; omega
    · exact h.2

theorem cString_append (d r : Str) (h : 0 ∉ d) : Dict.cString (d ++ 0 :: r) = .ok d := by
  induction d with
  | nil => rfl
  | cons b d ih =>
    simp only [List.mem_cons, not_or] at h
    rw [List.cons_append, Dict.cString, if_neg (Ne.symm h.1), ih h.2]
    rfl

/-! ## UTF-8 reader -/

theorem lead2 : ∀ h < 256, 0xc0 ≤ h → h < 0xe0 → h &&& 0x80 ≠ 0 ∧ leadLoop h 7 0x40 0x3f = (0x20, 0x1f) ∧
    h &&& 0x1f = h - 0xc0 := by decide +kernel
theorem lead3 : ∀ h < 256, 0xe0 ≤ h → h < 0xf0 → h &&& 0x80 ≠ 0 ∧ leadLoop h 7 0x40 0x3f = (0x10, 0x0f) ∧
    h &&& 0x0f = h - 0xe0 := by decide +kernel
theorem lead4 : ∀ h < 256, 0xf0 ≤ h → h < 0xf8 → h &&& 0x80 ≠ 0 ∧ leadLoop h 7 0x40 0x3f = (0x08, 0x07) ∧
    h &&& 0x07 = h - 0xf0 := by decide +kernel
theorem cont_iff : ∀ b < 256, (b &&& 0xc0 = 0x80 ↔ 0x80 ≤ b ∧ b < 0xc0) := by decide +kernel
theorem cont_val : ∀ b < 256, 0x80 ≤ b → b < 0xc0 → b &&& 0x3f = b - 0x80 := by decide +kernel
theorem ascii_iff : ∀ b < 256, (b &&& 0x80 = 0 ↔ b < 0x80) := by decide +kernel
theorem stray : ∀ h < 256, 0x80 ≤ h → h < 0xc0 → h &&& 0x80 ≠ 0 ∧ leadLoop h 7 0x40 0x3f = (0x40, 0x3f) := by
  decide +kernel

theorem contLoop_step (check uc x : Nat) (r : Str) (h1 : check ≠ 0x40) (hx : x < 0x40) :
    contLoop check uc ((0x80 + x) :: r) = contLoop (check * 2 % 256) ((uc * 64 + x) % 0x100000000) r := by
  rw [contLoop, if_neg h1, if_neg (not_not.mpr ((cont_iff (0x80 + x) (by omega)).mpr (by omega))),
    cont_val (0x80 + x) (by omega) (by omega) (by omega)]
  rw [Nat.add_sub_cancel_left]

theorem contLoop_done (uc : Nat) (r : Str) : contLoop 0x40 uc r = some (uc, r) := by
  cases r <;> rw [contLoop, if_pos rfl]

theorem getUTF8_enc (c : Nat) (h : c < 0x110000) (r : Str) :
    getUTF8 (utf8EncodeOne c ++ r) = some (c, r) := by
  unfold utf8EncodeOne
  split
  · rename_i h1
    rw [List.cons_append, List.nil_append, getUTF8, if_pos ((ascii_iff c (by omega)).mpr h1)]
  split
  · rename_i h1 h2
    obtain ⟨e1, e2, e3⟩ := lead2 (0xc0 + c / 0x40) (by omega) (by omega) (by omega)
    simp only [List.cons_append, List.nil_append, getUTF8, e1, if_false, e2, e3]
    rw [if_neg (by decide), contLoop_step _ _ _ _ (by decide) (by omega), contLoop_done]
    congr 2; omega
  split
  · rename_i h1 h2 h3
    obtain ⟨e1, e2, e3⟩ := lead3 (0xe0 + c / 0x1000) (by omega) (by omega) (by omega)
    simp only [List.cons_append, List.nil_append, getUTF8, e1, if_false, e2, e3]
    rw [if_neg (by decide), contLoop_step _ _ _ _ (by decide) (by omega),
      contLoop_step _ _ _ _ (by decide) (by omega), contLoop_done]
    congr 2; omega
  · rename_i h1 h2 h3
    obtain ⟨e1, e2, e3⟩ := lead4 (0xf0 + c / 0x40000) (by omega) (by omega) (by omega)
    simp only [List.cons_append, List.nil_append, getUTF8, e1, if_false, e2, e3]
    rw [if_neg (by decide), contLoop_step _ _ _ _ (by decide) (by omega),
      contLoop_step _ _ _ _ (by decide) (by omega), contLoop_step _ _ _ _ (by decide) (by omega),
      contLoop_done]
    congr 2; omega

theorem contLoop_stop (check uc : Nat) (r : Str) (h1 : check ≠ 0x40)
    (hr : ∀ b ∈ r.head?, b < 256 ∧ ¬ (0x80 ≤ b ∧ b < 0xc0)) : contLoop check uc r = none := by
  cases r with
  | nil => rw [contLoop, if_neg h1]
  | cons b r =>
    obtain ⟨h2, h3⟩ := hr b rfl
    rw [contLoop, if_neg h1, if_pos fun e => h3 ((cont_iff b h2).mp e)]

theorem getUTF8_truncated (c : Nat) (h : c < 0x110000) (p q r : Str) (hp : p ≠ []) (hq : q ≠ [])
    (he : p ++ q = utf8EncodeOne c) (hr : ∀ b ∈ r.head?, b < 256 ∧ ¬ (0x80 ≤ b ∧ b < 0xc0)) :
    getUTF8 (p ++ r) = none := by
  obtain ⟨x, p, rfl⟩ := List.exists_cons_of_ne_nil hp
  unfold utf8EncodeOne at he
  split at he
  · simp at he; exact absurd he.2.2 hq
  split at he
  · obtain ⟨e1, e2, e3⟩ := lead2 (0xc0 + c / 0x40) (by omega) (by omega) (by omega)
    simp only [List.cons_append, List.cons.injEq] at he
    obtain ⟨rfl, he⟩ := he
    simp only [List.cons_append, getUTF8, e1, if_false, e2, e3]
    rw [if_neg (by decide)]
    match p, he with
    | [], _ => exact contLoop_stop _ _ _ (by decide) hr
    | y :: p, he => simp at he; exact absurd he.2.2 hq
  split at he
  · obtain ⟨e1, e2, e3⟩ := lead3 (0xe0 + c / 0x1000) (by omega) (by omega) (by omega)
    simp only [List.cons_append, List.cons.injEq] at he
    obtain ⟨rfl, he⟩ := he
    simp only [List.cons_append, getUTF8, e1, if_false, e2, e3]
    rw [if_neg (by decide)]
    match p, he with
    | [], _ => exact contLoop_stop _ _ _ (by decide) hr
    | [y], he =>
      simp only [List.cons_append, List.cons.injEq] at he
      obtain ⟨rfl, _⟩ := he
      rw [List.cons_append, contLoop_step _ _ _ _ (by decide) (by omega)]
      exact contLoop_stop _ _ _ (by decide) hr
    | y :: z :: p, he => simp at he; exact absurd he.2.2.2 hq
  · obtain ⟨e1, e2, e3⟩ := lead4 (0xf0 + c / 0x40000) (by omega) (by omega) (by omega)
    simp only [List.cons_append, List.cons.injEq] at he
    obtain ⟨rfl, he⟩ := he
    simp only [List.cons_append, getUTF8, e1, if_false, e2, e3]
    rw [if_neg (by decide)]
    match p, he with
    | [], _ => exact contLoop_stop _ _ _ (by decide) hr
    | [y], he =>
      simp only [List.cons_append, List.cons.injEq] at he
      obtain ⟨rfl, _⟩ := he
      rw [List.cons_append, contLoop_step _ _ _ _ (by decide) (by omega)]
      exact contLoop_stop _ _ _ (by decide) hr
    | [y, z], he =>
      simp only [List.cons_append, List.cons.injEq] at he
      obtain ⟨rfl, rfl, _⟩ := he
      rw [List.cons_append, List.cons_append, contLoop_step _ _ _ _ (by decide) (by omega),
        contLoop_step _ _ _ _ (by decide) (by omega)]
      exact contLoop_stop _ _ _ (by decide) hr
    | y :: z :: u :: p, he => simp at he; exact absurd he.2.2.2.2 hq

theorem contLoop_suffix {check uc c : Nat} {s r : Str} (h : contLoop check uc s = some (c, r)) :
    ∃ p, s = p ++ r ∧ ∀ b ∈ p, b &&& 0xc0 = 0x80 := by
  induction s generalizing check uc with
  | nil =>
    rw [contLoop] at h
    split at h <;> simp at h
    exact ⟨[], by rw [h.2]; simp⟩
  | cons b s ih =>
    rw [contLoop] at h
    split at h
    · cases h; exact ⟨[], by simp⟩
    split at h
    · cases h
    · rename_i _ hb
      obtain ⟨p, hp, hc⟩ := ih h
      refine ⟨b :: p, by rw [hp]; rfl, ?_⟩
      intro x hx
      rcases List.mem_cons.mp hx with rfl | hx
      · exact not_not.mp hb
      · exact hc x hx

/-! ## Reading lines -/

theorem fgets_line (n : Nat) (l r : Str) (hl : 10 ∉ l) (hn : l.length + 1 ≤ n) :
    fgets n (l ++ 10 :: r) = (l ++ [10], r) := by
  induction l generalizing n with
  | nil =>
    obtain ⟨n, rfl⟩ : ∃ m, n = m + 1 := ⟨n - 1, by simp at hn; omega⟩
    simp [fgets]
  | cons b l ih =>
    obtain ⟨n, rfl⟩ : ∃ m, n = m + 1 := ⟨n - 1, by simp at hn; omega⟩
    simp only [List.mem_cons, not_or] at hl
    rw [List.cons_append, fgets, if_neg (Ne.symm hl.1), ih n hl.2 (by simp at hn; omega)]
    rfl

theorem fgets_rest (n : Nat) (f : Str) : f = (fgets n f).1 ++ (fgets n f).2 := by
  induction n generalizing f with
  | zero => rfl
  | succ n ih =>
    cases f with
    | nil => rfl
    | cons b bs =>
      rw [fgets]
      split
      · rfl
      · simp only [List.cons_append]
        rw [← ih bs]

theorem fgets_nil (n : Nat) (f : Str) (h : (fgets (n + 1) f).1 = []) : f = [] := by
  cases f with
  | nil => rfl
  | cons b bs => rw [fgets] at h; split at h <;> simp at h

theorem wordLoop_enc (n : Nat) (w : List Nat) (hw : ∀ c ∈ w, c < 0x110000) (hn : w.length ≤ n) :
    wordLoop n (enc8 w) = some w := by
  induction w generalizing n with
  | nil => cases n <;> rfl
  | cons c w ih =>
    obtain ⟨n, rfl⟩ : ∃ m, n = m + 1 := ⟨n - 1, by simp at hn; omega⟩
    have h1 := getUTF8_enc c (hw c (by simp)) (enc8 w)
    have h2 := ih n (fun x hx => hw x (by simp [hx])) (by simp at hn; omega)
    rw [enc8_cons]
    cases he : utf8EncodeOne c ++ enc8 w with
    | nil => rw [he] at h1; simp [getUTF8] at h1
    | cons b s =>
      rw [he] at h1
      rw [wordLoop]
      simp only [h1, h2, Option.map_some]

theorem enc8_thai (w : List Nat) (hw : ∀ c ∈ w, 0x0e01 ≤ c ∧ c ≤ 0x0e5b) :
    (enc8 w).length = 3 * w.length ∧ ∀ b ∈ enc8 w, 0x80 ≤ b := by
  induction w with
  | nil => simp
  | cons c w ih =>
    obtain ⟨h1, h2⟩ := ih fun x hx => hw x (by simp [hx])
    obtain ⟨h3, h4⟩ := hw c (by simp)
    have : utf8EncodeOne c = [0xe0 + c / 0x1000, 0x80 + c / 0x40 % 0x40, 0x80 + c % 0x40] := by
      rw [utf8EncodeOne, if_neg (by omega), if_neg (by omega), if_pos (by omega)]
    rw [enc8_cons, this]
    refine ⟨by simp [h1]; omega, fun b hb => ?_⟩
    simp only [List.cons_append, List.nil_append, List.mem_cons] at hb
    rcases hb with rfl | rfl | rfl | hb
    · omega
    · omega
    · omega
    · exact h2 b hb

theorem takeWhile_append_stop {α} (p : α → Bool) (l : List α) (x : α) (r : List α)
    (hl : ∀ a ∈ l, p a = true) (hx : p x = false) :
    (l ++ x :: r).takeWhile p = l ∧ (l ++ x :: r).dropWhile p = x :: r := by
  induction l with
  | nil => simp [hx]
  | cons a l ih =>
    obtain ⟨h1, h2⟩ := ih fun a ha => hl a (by simp [ha])
    simp [hl a (by simp), h1, h2]

theorem readInput_line (e : DEntry) (h : GoodEntry e) (r : Str) :
    readInput (entryLine e ++ r) = .ok (some (e.word, e.data), r) := by
  obtain ⟨hw, hd, hn⟩ := h
  obtain ⟨l1, l2⟩ := enc8_thai e.word hw
  have he : entryLine e = (enc8 e.word ++ 9 :: e.data) ++ [10] := by
    simp [entryLine, enc8]
  have h10 : 10 ∉ enc8 e.word ++ 9 :: e.data := by
    simp only [List.mem_append, List.mem_cons, not_or]
    exact ⟨fun hb => by have := l2 _ hb; omega, by omega, fun hb => (hd _ hb).2 rfl⟩
  have h0 : ∀ b ∈ (enc8 e.word ++ 9 :: e.data) ++ [10], decide (b ≠ 0) = true := by
    intro b hb
    simp only [List.mem_append, List.mem_cons, List.not_mem_nil, or_false] at hb
    rcases hb with (hb | rfl | hb) | rfl
    · have := l2 _ hb; simp; omega
    · simp
    · simpa using (hd _ hb).1
    · simp
  have hf : fgets 255 (entryLine e ++ r) = ((enc8 e.word ++ 9 :: e.data) ++ [10], r) := by
    rw [he, List.append_assoc]
    exact fgets_line 255 _ r h10 (by simp [l1]; omega)
  unfold readInput
  rw [hf]
  simp only
  rw [List.takeWhile_eq_self_iff.mpr h0]
  rw [if_neg (by simp), if_neg (by simp)]
  simp only [List.getLast?_append, List.getLast?_singleton, Option.or_some, List.dropLast_concat, if_true,
    Option.some_or]
  obtain ⟨t1, t2⟩ := takeWhile_append_stop (fun b : Nat => decide (b ≠ 9)) (enc8 e.word) 9 e.data
    (fun b hb => by have := l2 _ hb; simp; omega) (by simp)
  rw [if_neg (by simp), t1, t2, wordLoop_enc 255 e.word (fun c hc => by have := hw c hc; omega) (by omega)]
  rfl

/-! ## The generator -/

/-- The index of the newest entry for a word (entries newest first). -/
def idxOf (w : List Nat) : List DEntry → Option Nat
  | [] => none
  | e :: es => if e.word = w then some (bankOf (es.map DEntry.data)).length else idxOf w es

def newest (w : List Nat) : List DEntry → Option Str
  | [] => none
  | e :: es => if e.word = w then some e.data else newest w es

structure GenInv (t : Trie) (b : DataBank) (es : List DEntry) : Prop where
  bank : BankInv b (es.map DEntry.data)
  get : ∀ w, t.get w = (idxOf w es).map fun (n : Nat) => (n : Int)
  keys : ∀ w, t.hasPrefix w = true ↔ ∃ e ∈ es, w <+: e.word
  data : ∀ e ∈ es, 0 ∉ e.data

theorem lookup_filter (t : Trie) (w w' : List Nat) (h : w' ≠ w) :
    (t.filter fun e => decide (e.1 ≠ w)).lookup w' = t.lookup w' := by
  induction t with
  | nil => rfl
  | cons a t ih =>
    obtain ⟨k, i⟩ := a
    by_cases hk : k = w
    · subst hk
      rw [List.filter_cons_of_neg (by simp), ih, List.lookup_cons]
      have : (w' == k) = false := by simpa using h
      rw [this]
    · rw [List.filter_cons_of_pos (by simpa using hk), List.lookup_cons, List.lookup_cons, ih]

theorem genInv_new (junk) : GenInv [] (newDataBank junk) [] :=
  ⟨bankInv_new junk, fun w => rfl, fun w => by simp [Trie.hasPrefix], by simp⟩

theorem genInv_store {t t' : Trie} {b b' : DataBank} {es : List DEntry} {key : List Nat} {d : Str}
    (h : GenInv t b es) (hb : BankInv b' (d :: es.map DEntry.data)) (hd : 0 ∉ d)
    (hs : trieStore t key b.dataSize = some t') : GenInv t' b' (⟨key.takeWhile (· ≠ 0), d⟩ :: es) := by
  unfold trieStore at hs
  simp only at hs
  generalize key.takeWhile (· ≠ 0) = w at hs ⊢
  split at hs
  · cases hs
    refine ⟨hb, fun w' => ?_, fun w' => ?_, ?_⟩
    · rw [Trie.get, List.lookup_cons, idxOf]
      by_cases hw : w' = w
      · subst hw; simp [h.bank.size]
      · have : (w' == w) = false := by simpa using hw
        rw [this, if_neg (Ne.symm hw)]
        simp only
        rw [lookup_filter t w w' hw]
        exact h.get w'
    · have hk := h.keys w'
      rw [Trie.hasPrefix, List.any_eq_true] at hk ⊢
      simp only [List.mem_cons, List.mem_filter, decide_eq_true_eq, exists_eq_or_imp,
        List.isPrefixOf_iff_prefix] at hk ⊢
      constructor
      · rintro (hp | ⟨e, ⟨he, _⟩, hp⟩)
        · exact .inl hp
        · exact .inr (hk.mp ⟨e, he, hp⟩)
      · rintro (hp | hp)
        · exact .inl hp
        · obtain ⟨e, he, hp⟩ := hk.mpr hp
          by_cases hew : e.1 = w
          · exact .inl (hew ▸ hp)
          · exact .inr ⟨e, ⟨he, hew⟩, hp⟩
    · intro e he
      rcases List.mem_cons.mp he with rfl | he
      · exact hd
      · exact h.data e he
  · cases hs

theorem readInput_form (f : Str) :
    readInput f = .ok (none, (fgets 255 f).2) ∨
    (∃ w d, readInput f = .ok (some (w, d), (fgets 255 f).2) ∧ (fgets 255 f).1 ≠ [] ∧ 0 ∉ d) ∨
    (readInput f = .ub ∧ 0 ∈ (fgets 255 f).1) := by
  unfold readInput
  generalize fgets 255 f = q
  obtain ⟨buf, rest⟩ := q
  simp only
  split
  · exact .inl rfl
  rename_i hb
  split
  · rename_i h0
    refine .inr (.inr ⟨rfl, ?_⟩)
    obtain ⟨b, buf, rfl⟩ := List.exists_cons_of_ne_nil hb
    rw [List.takeWhile_cons] at h0
    split at h0
    · simp at h0
    · rename_i hb0
      simp at hb0; simp [hb0]
  generalize hl : (if (buf.takeWhile fun x => decide (x ≠ 0)).getLast? = some 10 then
    (buf.takeWhile fun x => decide (x ≠ 0)).dropLast
    else buf.takeWhile fun x => decide (x ≠ 0)) = line
  have h0 : 0 ∉ line := by
    have hb : 0 ∉ buf.takeWhile (· ≠ 0) := fun h0 => by simpa using List.mem_takeWhile_imp h0
    rw [← hl]
    split
    · exact fun hx => hb (List.dropLast_subset _ hx)
    · exact hb
  split
  · exact .inl rfl
  split
  · exact .inl rfl
  · exact .inr (.inl ⟨_, _, rfl, hb, fun hx => h0 ((List.dropWhile_sublist _).subset (List.mem_of_mem_drop hx))⟩)

theorem readInput_data {f rest : Str} {w d} (h : readInput f = .ok (some (w, d), rest)) : 0 ∉ d := by
  rcases readInput_form f with h' | ⟨w', d', h', _, h0⟩ | ⟨h', _⟩ <;> rw [h'] at h
  · simp at h
  · simp only [Res.ok.injEq, Prod.mk.injEq, Option.some.injEq] at h
    rw [← h.1.2]; exact h0
  · cases h

theorem genLoop_run {junk fuel} {f : Str} {t t' : Trie} {b b' : DataBank} {es : List DEntry}
    (h : GenInv t b es) (hr : genLoop junk fuel f t b = .ok (.success t' b')) :
    ∃ es', Run f es' ∧ GenInv t' b' (es'.reverse ++ es) := by
  induction fuel generalizing f t b es with
  | zero => cases hr
  | succ fuel ih =>
    rw [genLoop] at hr
    obtain ⟨⟨r, rest⟩, h1, hr⟩ := Res.bind_eq_ok.mp hr
    cases r with
    | none =>
      simp only [Res.pure_eq, Res.ok.injEq, GenResult.success.injEq] at hr
      obtain ⟨rfl, rfl⟩ := hr
      exact ⟨[], .stop f rest h1, h⟩
    | some p =>
      obtain ⟨w, d⟩ := p
      simp only at hr
      obtain ⟨b1, h2, h3, _⟩ := addData_spec junk b _ d h.bank
      rw [h2] at hr
      simp only [Res.ok_bind] at hr
      split at hr
      · simp at hr
      · rename_i t1 ht
        obtain ⟨es', hr1, hr2⟩ := ih (genInv_store h h3 (readInput_data h1) ht) hr
        exact ⟨_, .line f rest w d es' h1 hr1, by simpa using hr2⟩

theorem genInv_newest {t b es} (h : GenInv t b es) (w : List Nat) :
    (∃ i, t.get w = some i) ↔ ∃ s, newest w es = some s := by
  rw [h.get]
  clear h
  induction es with
  | nil => simp [idxOf, newest]
  | cons e es ih =>
    by_cases hw : e.word = w
    · simp [idxOf, newest, hw]
    · simpa [idxOf, newest, hw] using ih

theorem idx_newest {es : List DEntry} (hd : ∀ e ∈ es, 0 ∉ e.data) {w : List Nat} {n : Nat}
    (h : idxOf w es = some n) (r : Str) :
    n < (bankOf (es.map DEntry.data)).length ∧
    ∃ s, newest w es = some s ∧ Dict.cString ((bankOf (es.map DEntry.data) ++ r).drop n) = .ok s := by
  induction es generalizing r with
  | nil => simp [idxOf] at h
  | cons e es ih =>
    simp only [idxOf] at h
    simp only [List.map_cons, bankOf, newest]
    by_cases hw : e.word = w
    · rw [if_pos hw] at h ⊢
      cases h
      refine ⟨by simp, e.data, rfl, ?_⟩
      rw [List.append_assoc, List.drop_left, List.append_assoc]
      exact cString_append _ _ (hd e (by simp))
    · rw [if_neg hw] at h ⊢
      obtain ⟨h1, s, h2, h3⟩ := ih (fun e he => hd e (by simp [he])) h ((e.data ++ [0]) ++ r)
      exact ⟨by simp; omega, s, h2, by rw [List.append_assoc]; exact h3⟩

theorem newest_eq (w : List Nat) (es : List DEntry) : newest w es.reverse = lastData es w := by
  have : ∀ l, newest w l = (l.find? fun e => decide (e.word = w)).map DEntry.data := by
    intro l
    induction l with
    | nil => rfl
    | cons e l ih =>
      rw [newest, List.find?_cons]
      by_cases hw : e.word = w
      · simp [hw]
      · simp [hw, ih]
  rw [this, lastData]

theorem genLoop_lines (junk : Byte) (es : List DEntry) (hes : ∀ e ∈ es, GoodEntry e) (fuel : Nat)
    (hf : es.length < fuel) (t : Trie) (b : DataBank) (old : List DEntry) (h : GenInv t b old) :
    ∃ t' b', genLoop junk fuel (es.flatMap entryLine) t b = .ok (.success t' b') ∧
      GenInv t' b' (es.reverse ++ old) := by
  induction es generalizing fuel t b old with
  | nil =>
    obtain ⟨fuel, rfl⟩ : ∃ m, fuel = m + 1 := ⟨fuel - 1, by simp at hf; omega⟩
    exact ⟨t, b, rfl, h⟩
  | cons e es ih =>
    obtain ⟨fuel, rfl⟩ : ∃ m, fuel = m + 1 := ⟨fuel - 1, by simp at hf; omega⟩
    have he := hes e (by simp)
    obtain ⟨b1, h2, h3, _⟩ := addData_spec junk b _ e.data h.bank
    have hw0 : e.word.takeWhile (· ≠ 0) = e.word :=
      List.takeWhile_eq_self_iff.mpr fun c hc => by have := he.1 c hc; simp; omega
    have hall : (e.word.takeWhile (· ≠ 0)).all inAlphabet = true := by
      rw [hw0, List.all_eq_true]
      intro c hc
      simpa [inAlphabet] using he.1 c hc
    obtain ⟨t1, ht⟩ : ∃ t1, trieStore t e.word b.dataSize = some t1 := by
      rw [trieStore]; simp only [hall, if_true]; exact ⟨_, rfl⟩
    obtain ⟨t', b', hr, hi⟩ := ih (fun e he => hes e (by simp [he])) fuel (by simp at hf; omega) t1 b1 _
      (genInv_store h h3 (fun h0 => (he.2.1 0 h0).1 rfl) ht)
    refine ⟨t', b', ?_, by rw [hw0] at hi; simpa using hi⟩
    rw [genLoop, List.flatMap_cons, readInput_line e he]
    simp only [Res.ok_bind, h2, ht]
    exact hr

/-- Every call of `readInput` that returns a line consumes something. -/
theorem readInput_rest {f rest : Str} {p} (h : readInput f = .ok (some p, rest)) :
    rest.length < f.length := by
  rcases readInput_form f with h' | ⟨w', d', h', hb, h0⟩ | ⟨h', _⟩ <;> rw [h'] at h
  · simp at h
  · simp only [Res.ok.injEq, Prod.mk.injEq] at h
    rw [← h.2]
    have := List.length_pos_iff.mpr hb
    conv_rhs => rw [fgets_rest 255 f]
    rw [List.length_append]; omega
  · cases h

theorem readInput_cases (f : Str) : (∃ rest, readInput f = .ok (none, rest)) ∨
    (∃ p rest, readInput f = .ok (some p, rest)) ∨ (readInput f = .ub ∧ 0 ∈ f) := by
  rcases readInput_form f with h' | ⟨w', d', h', hb, h0⟩ | ⟨h', h0⟩
  · exact .inl ⟨_, h'⟩
  · exact .inr (.inl ⟨_, _, h'⟩)
  · exact .inr (.inr ⟨h', by rw [fgets_rest 255 f]; exact List.mem_append_left _ h0⟩)

theorem readInput_mem {f rest : Str} {o} (h : readInput f = .ok (o, rest)) : ∀ b ∈ rest, b ∈ f := by
  have : rest = (fgets 255 f).2 := by
    rcases readInput_form f with h' | ⟨w', d', h', hb, h0⟩ | ⟨h', _⟩ <;> rw [h'] at h <;> cases h <;> rfl
  intro b hb
  rw [fgets_rest 255 f, ← this]
  exact List.mem_append_right _ hb

theorem genLoop_defined (junk fuel) (f : Str) (t : Trie) (b : DataBank) (ds) (hb : BankInv b ds)
    (hf : f.length < fuel) :
    (∃ r, genLoop junk fuel f t b = .ok r) ∨ (genLoop junk fuel f t b = .ub ∧ 0 ∈ f) := by
  induction fuel generalizing f t b ds with
  | zero => omega
  | succ fuel ih =>
    rw [genLoop]
    rcases readInput_cases f with ⟨rest, h⟩ | ⟨⟨w, d⟩, rest, h⟩ | ⟨h, h0⟩
    · rw [h]; exact .inl ⟨_, rfl⟩
    · rw [h]
      obtain ⟨b1, h2, h3, _⟩ := addData_spec junk b _ d hb
      simp only [Res.ok_bind, h2]
      split
      · exact .inl ⟨_, rfl⟩
      · rcases ih rest _ b1 _ h3 (by have := readInput_rest h; omega) with hr | ⟨hr, h0⟩
        · exact .inl hr
        · exact .inr ⟨hr, readInput_mem h 0 h0⟩
    · rw [h]; exact .inr ⟨rfl, h0⟩

/-! ## Lookup -/

/-- What `findLoop` reports. -/
theorem findLoop_spec (t : Trie) (look : List Nat → Option Str)
    (hk : ∀ w i, t.get w = some i → t.hasPrefix w = true)
    (hp : ∀ w v, t.hasPrefix (w ++ v) = true → t.hasPrefix w = true)
    (hl : ∀ w, (t.get w).isSome = (look w).isSome)
    (pos : Nat) (walked cs : List Nat) :
    (∃ n, 0 < n ∧ n ≤ cs.length ∧ Match.findLoop t pos walked cs =
        (pos + n, walked ++ cs.take n, true) ∧ (look (walked ++ cs.take n)).isSome = true ∧
        ∀ k, 0 < k → k < n → look (walked ++ cs.take k) = none) ∨
    (∃ n, n ≤ cs.length ∧ Match.findLoop t pos walked cs = (pos + n, walked ++ cs.take n, false) ∧
        Match.findLoop t (pos + n) (walked ++ cs.take n) (cs.drop n) =
          (pos + n, walked ++ cs.take n, false) ∧
        ∀ k, 0 < k → k ≤ cs.length → look (walked ++ cs.take k) = none) := by
  induction cs generalizing pos walked with
  | nil =>
    right
    exact ⟨0, by simp, by simp [Match.findLoop], by simp [Match.findLoop], fun k h1 h2 => by simp at h2; omega⟩
  | cons c cs ih =>
    rw [Match.findLoop]
    by_cases hpre : t.hasPrefix (walked ++ [c]) = true
    · rw [if_pos hpre]
      by_cases hterm : (t.get (walked ++ [c])).isSome = true
      · left
        refine ⟨1, by omega, by simp, ?_, ?_, fun k h1 h2 => by omega⟩
        · rw [if_pos hterm]; simp
        · rw [← hl]; simpa using hterm
      · rw [if_neg hterm]
        have hnone : look (walked ++ [c]) = none := by
          have := hl (walked ++ [c])
          cases h : look (walked ++ [c]) with
          | none => rfl
          | some _ => rw [h] at this; exact absurd (by rw [this]; rfl) hterm
        have hk1 : ∀ k, look (walked ++ [c] ++ cs.take k) = look (walked ++ (c :: cs).take (k + 1)) := by
          intro k; simp
        rcases ih (pos + 1) (walked ++ [c]) with ⟨n, h1, h2, h3, h4, h5⟩ | ⟨n, h2, h3, h4, h5⟩
        · left
          refine ⟨n + 1, by omega, by simpa using h2, ?_, ?_, ?_⟩
          · rw [h3]; simp; omega
          · rw [← hk1]; exact h4
          · intro k hk0 hkn
            obtain ⟨k, rfl⟩ : ∃ m, k = m + 1 := ⟨k - 1, by omega⟩
            rw [← hk1]
            by_cases hk0 : k = 0
            · subst hk0; simpa using hnone
            · exact h5 k (by omega) (by omega)
        · right
          refine ⟨n + 1, by simpa using h2, ?_, ?_, ?_⟩
          · rw [h3]; simp; omega
          · have e1 : pos + (n + 1) = pos + 1 + n := by omega
            have e2 : walked ++ (c :: cs).take (n + 1) = walked ++ [c] ++ cs.take n := by simp
            rw [e1, e2, List.drop_succ_cons]
            exact h4
          · intro k hk0 hkn
            obtain ⟨k, rfl⟩ : ∃ m, k = m + 1 := ⟨k - 1, by omega⟩
            rw [← hk1]
            by_cases hk0 : k = 0
            · subst hk0; simpa using hnone
            · exact h5 k (by omega) (by simpa using hkn)
    · rw [if_neg hpre]
      right
      refine ⟨0, by simp, by simp, ?_, ?_⟩
      · simp only [Nat.add_zero, List.take_zero, List.append_nil, List.drop_zero]
        rw [Match.findLoop]
        rw [if_neg hpre]
      · intro k hk0 hkn
        obtain ⟨k, rfl⟩ : ∃ m, k = m + 1 := ⟨k - 1, by omega⟩
        cases h : look (walked ++ (c :: cs).take (k + 1)) with
        | none => rfl
        | some s =>
          have h1 := hl (walked ++ (c :: cs).take (k + 1))
          rw [h] at h1
          obtain ⟨i, hi⟩ := Option.isSome_iff_exists.mp h1
          have h2 := hk _ i hi
          refine absurd (hp (walked ++ [c]) (cs.take k) ?_) hpre
          simpa using h2

/-- A dictionary whose lookups give `look`. -/
structure DictLook (d : Dict) (look : List Nat → Option Str) : Prop where
  trie : ∃ t, d.mTrie = some t ∧ (∀ w i, t.get w = some i → t.hasPrefix w = true) ∧
    (∀ w v, t.hasPrefix (w ++ v) = true → t.hasPrefix w = true) ∧
    (∀ w, look w = none → t.get w = none) ∧
    ∀ w s, look w = some s → ∃ i, t.get w = some i ∧ ((i = -1 ∧ s = []) ∨ (i ≠ -1 ∧ d.getData i = .ok s))

theorem range'_filterMap_zero {α} (f : Nat → Option α) (s n m : Nat) (h : ∀ k, s ≤ k → k < s + n → f k = none) :
    (List.range' s (n + m)).filterMap f = (List.range' (s + n) m).filterMap f := by
  rw [← List.range'_append_1, List.filterMap_append]
  have : (List.range' s n).filterMap f = [] := by
    rw [List.filterMap_eq_nil_iff]
    intro k hk
    rw [List.mem_range'_1] at hk
    exact h k hk.1 hk.2
  rw [this, List.nil_append]

theorem reports (d : Dict) (look) (h : DictLook d look) (text : List Nat) (pos : Nat)
    (k : Nat) (hk : pos + k ≤ text.length) :
    Reports ⟨text, pos, pos + k, d, some ((text.drop pos).take k)⟩
      ((List.range' (k + 1) (text.length - pos - k)).filterMap fun n =>
        (look ((text.drop pos).take n)).map fun s => (pos + n, s)) := by
  obtain ⟨t, ht, h1, h2, h3, h4⟩ := h.trie
  have hl : ∀ w, (t.get w).isSome = (look w).isSome := by
    intro w
    cases hw : look w with
    | none => rw [h3 w hw]; rfl
    | some s => obtain ⟨i, hi, _⟩ := h4 w s hw; rw [hi]; rfl
  generalize hm : text.length - pos - k = m
  induction m using Nat.strong_induction_on generalizing k with
  | _ m ih =>
  have htk : ∀ n, (text.drop pos).take k ++ ((text.drop pos).drop k).take n = (text.drop pos).take (k + n) :=
    fun n => by rw [List.take_add]
  have hfind : ∀ x : Match, x = ⟨text, pos, pos + k, d, some ((text.drop pos).take k)⟩ → x.findNext =
      (let r := Match.findLoop t (pos + k) ((text.drop pos).take k) ((text.drop pos).drop k)
       (⟨text, pos, r.1, d, some r.2.1⟩, r.2.2)) := by
    rintro _ rfl
    simp only [Match.findNext, ht, List.drop_drop]
  have hf := hfind _ rfl
  have hlen : ((text.drop pos).drop k).length = m := by simp; omega
  rcases findLoop_spec t look h1 h2 hl (pos + k) ((text.drop pos).take k) ((text.drop pos).drop k) with
    ⟨n, n1, n2, n3, n4, n5⟩ | ⟨n, n2, n3, n4, n5⟩
  · rw [n3, htk] at hf
    simp only at hf
    rw [htk] at n4
    rw [hlen] at n2
    obtain ⟨s, hs⟩ := Option.isSome_iff_exists.mp n4
    obtain ⟨i, hi, hi1⟩ := h4 _ s hs
    have hr := ih (m - n) (by omega) (k + n) (by omega) (by omega)
    have hd : (Match.mk text pos (pos + k + n) d (some ((text.drop pos).take (k + n)))).getData = .ok s := by
      simp only [Match.getData, ht, hi]
      rcases hi1 with ⟨rfl, rfl⟩ | ⟨hi1, hi2⟩
      · rfl
      · rw [if_neg (by simpa [Match.trieDataError] using hi1)]
        exact hi2
    have heq : (List.range' (k + 1) m).filterMap (fun n =>
        (look ((text.drop pos).take n)).map fun s => (pos + n, s)) =
        (pos + k + n, s) :: (List.range' (k + n + 1) (m - n)).filterMap (fun n =>
        (look ((text.drop pos).take n)).map fun s => (pos + n, s)) := by
      have e : m = (n - 1) + ((m - n) + 1) := by omega
      conv_lhs => rw [e]
      rw [range'_filterMap_zero, List.range'_succ, List.filterMap_cons]
      · have e2 : k + 1 + (n - 1) = k + n := by omega
        rw [e2, hs]
        simp only [Option.map_some, Nat.add_assoc]
      · intro j hj1 hj2
        have := n5 (j - k) (by omega) (by omega)
        rw [htk, show k + (j - k) = j by omega] at this
        rw [this]; rfl
    rw [heq]
    have := Reports.found (Match.mk text pos (pos + k) d (some ((text.drop pos).take k))) s
      ((List.range' (k + n + 1) (m - n)).filterMap (fun n =>
        (look ((text.drop pos).take n)).map fun s => (pos + n, s))) (by rw [hf]) (by rw [hf]; exact hd)
      (by rw [hf]; simpa [Nat.add_assoc] using hr)
    rw [hf] at this
    exact this
  · have hnil : (List.range' (k + 1) m).filterMap (fun n =>
        (look ((text.drop pos).take n)).map fun s => (pos + n, s)) = [] := by
      rw [List.filterMap_eq_nil_iff]
      intro j hj
      rw [List.mem_range'_1] at hj
      have := n5 (j - k) (by omega) (by omega)
      rw [htk, show k + (j - k) = j by omega] at this
      rw [this]; rfl
    rw [hnil]
    refine .stop _ ?_ ?_
    · rw [hf, n3]
    · rw [hf, n3]
      simp only [Match.findNext, ht]
      have : text.drop (pos + k + n) = ((text.drop pos).drop k).drop n := by simp [List.drop_drop]
      rw [this, n4]

theorem genInv_data {t b es} (h : GenInv t b es) (w : List Nat) (s : Str) (hs : newest w es = some s) :
    ∃ i, t.get w = some i ∧ i ≠ -1 ∧ (Dict.mk (some t) (some (b.pool.take b.dataSize))).getData i = .ok s := by
  obtain ⟨i, hi⟩ := (genInv_newest h w).mpr ⟨s, hs⟩
  refine ⟨i, hi, ?_⟩
  rw [h.get] at hi
  obtain ⟨n, hn, rfl⟩ := Option.map_eq_some_iff.mp hi
  obtain ⟨hlt, s', hs', hc⟩ := idx_newest h.data hn []
  rw [hs] at hs'; cases hs'
  refine ⟨by omega, ?_⟩
  simp only [Dict.getData]
  rw [if_neg (by omega), h.bank.2]
  simpa using hc

theorem genInv_look {t b es} (h : GenInv t b es) :
    DictLook ⟨some t, some (b.pool.take b.dataSize)⟩ fun w => newest w es := by
  refine ⟨t, rfl, ?_, ?_, ?_, ?_⟩
  · intro w i hi
    rw [h.keys]
    rw [h.get] at hi
    have : ∃ e ∈ es, e.word = w := by
      clear h
      induction es with
      | nil => simp [idxOf] at hi
      | cons e es ih =>
        by_cases hw : e.word = w
        · exact ⟨e, by simp, hw⟩
        · rw [idxOf, if_neg hw] at hi
          obtain ⟨e', he, hw'⟩ := ih hi
          exact ⟨e', by simp [he], hw'⟩
    obtain ⟨e, he, rfl⟩ := this
    exact ⟨e, he, List.prefix_refl _⟩
  · intro w v hv
    rw [h.keys] at hv ⊢
    obtain ⟨e, he, hp⟩ := hv
    exact ⟨e, he, (List.prefix_append w v).trans hp⟩
  · intro w hw
    cases hg : t.get w with
    | none => rfl
    | some i =>
      obtain ⟨s, hs⟩ := (genInv_newest h w).mp ⟨i, hg⟩
      rw [hw] at hs; cases hs
  · intro w s hs
    obtain ⟨i, hi, hd⟩ := genInv_data h w s hs
    exact ⟨i, hi, .inr hd⟩

theorem open_gen {t b es} (h : GenInv t b es) (hne : es ≠ []) (hsz : b.dataSize < 0x80000000) (d : Dict) :
    Dict.open_ d (some ⟨some t, dataBankWrite b⟩) = .ok (⟨some t, some (b.pool.take b.dataSize)⟩, true) := by
  have hpos : 0 < b.dataSize := by
    rw [← h.bank.size]
    obtain ⟨e, es, rfl⟩ := List.exists_cons_of_ne_nil hne
    simp [bankOf]; omega
  have hr : Dict.readInt32 (dataBankWrite b) = some ((b.dataSize : Int), b.pool.take b.dataSize) :=
    readInt32_write _ (by omega) _
  have : Dict.readDataBank (dataBankWrite b) = .ok (some (b.pool.take b.dataSize)) := by
    rw [Dict.readDataBank, hr]
    simp only [Int.toNat_natCast]
    rw [if_neg (by omega), if_neg (by omega), if_neg (by rw [List.length_take]; have := h.bank.1; omega)]
    rw [List.take_take, Nat.min_self]
  simp [Dict.open_, this]

/-- Reading four bytes is the inverse of writing them. -/
theorem readInt32_inv {s r : Str} {n : Int} (hb : ∀ b ∈ s, b < 256) (h : Dict.readInt32 s = some (n, r)) :
    s = Gen.fileWriteInt32 n ++ r ∧ n < 0x80000000 := by
  match s, h with
  | b0 :: b1 :: b2 :: b3 :: s', h =>
    cases h
    have h0 := hb b0 (by simp)
    have h1 := hb b1 (by simp)
    have h2 := hb b2 (by simp)
    have h3 := hb b3 (by simp)
    generalize hN : b0 * 0x1000000 + b1 * 0x10000 + b2 * 0x100 + b3 = N
    have hlt : N < 0x100000000 := by omega
    have hm : (Dict.toInt32 N % 0x100000000).toNat = N := by
      unfold Dict.toInt32
      split <;> omega
    refine ⟨?_, by unfold Dict.toInt32; split <;> omega⟩
    simp only [Gen.fileWriteInt32, hm, List.cons_append, List.nil_append, List.cons.injEq, and_true]
    omega

end Thpronun
