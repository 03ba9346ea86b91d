import Verif.Lemmas.ParserText
import Verif.Props.States

/-! # The work of the parser on ราคราค…ราคา: helper lemmas for C57 -/

namespace Thpronun
open Res

/-- Positions and flags of the calls of `AddState`. -/
def shapeOf (r : Res (List Emit)) : Res (List (Nat × Bool)) := do
  let es ← r
  pure (es.map fun e => (e.pos, e.linked))

namespace Work

variable {w : U16Str} {q t : Nat}

theorem consR : thaiCType.isCons 0xe23 = true := by decide
theorem consK : thaiCType.isCons 0xe04 = true := by decide
theorem consA : thaiCType.isCons 0xe32 = false := by decide
theorem toneA : thaiCType.isTone 0xe32 = false := by decide
theorem toneR : thaiCType.isTone 0xe23 = false := by decide
theorem upA : thaiCType.isUpVowel 0xe32 = false := by decide
theorem upR : thaiCType.isUpVowel 0xe23 = false := by decide
theorem blA : thaiCType.isBlVowel 0xe32 = false := by decide
theorem blR : thaiCType.isBlVowel 0xe23 = false := by decide
theorem ldA : thaiCType.isLdVowel 0xe32 = false := by decide
theorem sndR : initConsSound 0xe23 = .ok .RA := by decide
theorem sndK : initConsSound 0xe04 = .ok .KHA := by decide
theorem clsR : initConsClass 0xe23 = .ok .LOWS := by decide
theorem clsK : initConsClass 0xe04 = .ok .LOWP := by decide
theorem endK : endConsClass 0xe04 = .ok .KOK := by decide
theorem endR : endConsClass 0xe23 = .ok .KON := by decide

set_option linter.unusedSimpArgs false

local macro "eval_rules" "[" ts:Lean.Parser.Tactic.simpLemma,* "]" : tactic =>
  `(tactic| simp [parseThCons, matchInitCons, consR, consK, consA, toneA, toneR, upA, upR, blA, blR, ldA, sndR, sndK,
    clsR, clsK, endK, endR, isSylStart, concatRes, thConsOne, plainCons, readTone, karanEmit, matchKaranSimple, UTH.RU,
    UTH.MAI_HAN_AKAT, UTH.MAITAIKHU, UTH.SARA_A, UTH.SARA_AA, UTH.SARA_AM, UTH.WO_WAEN, UTH.O_ANG, UTH.THANTHAKHAT, eatEndConsComplex,
    endConsOf, matchKaranComplex, linkPart, afterClusterVowels, eConsWithRo, UTH.RO_RUA, UTH.KO_KAI, UTH.KHO_KHWAI,
    UTH.TO_TAO, UTH.THO_THAHAN, UTH.CHO_CHANG, endOrSylStart, shapeOf, twoCons, clusters, clusterRo, auraRo, notRoAt,
    notRoRo, UTH.HO_HIP, UTH.BO_BAIMAI, UTH.DO_DEK, UTH.CHO_CHAN, UTH.SO_SO, UTH.SO_SALA, UTH.SO_SUA, UTH.KHO_KHAI,
    UTH.PHO_PHAN, UTH.FO_FAN, UTH.PO_PLA, UTH.SARA_I, UTH.SARA_U, UTH.SARA_II, auraCons, roRua, isCharAt, $ts,*])

theorem emits_ro (h0 : strAt w q = .ok 0xe23) (h1 : strAt w (q+1) = .ok 0xe32) (h2 : strAt w (q+2) = .ok 0xe04)
    (h3 : strAt w (q+3) = .ok 0xe23) (h4 : strAt w (q+4) = .ok 0xe32) (h5 : strAt w (q+5) = .ok 0xe04)
    (ht : q + 6 < t) :
    shapeOf (parseThCons thaiCType w q t false) = .ok [(q+2, false), (q+3, false), (q+2, true)] := by
  have t1 : q + 1 < t := by omega
  have t2 : q + 2 < t := by omega
  have t3 : q + 3 < t := by omega
  have t4 : q + 4 < t := by omega
  have t5 : q + 5 < t := by omega
  have u1 : ¬ (t ≤ q + 1) := by omega
  have u4 : ¬ (t ≤ q + 4) := by omega
  have u5 : ¬ (q + 4 = t) := by omega
  eval_rules [h0, h1, h2, h3, h4, h5, t1, t2, t3, t4, t5, u1, u4, u5]

theorem emits_ro_end (h0 : strAt w q = .ok 0xe23) (h1 : strAt w (q+1) = .ok 0xe32) (h2 : strAt w (q+2) = .ok 0xe04)
    (h3 : strAt w (q+3) = .ok 0xe32) :
    shapeOf (parseThCons thaiCType w q (q + 4) false) = .ok [(q+2, false), (q+3, false), (q+2, true)] := by
  eval_rules [h0, h1, h2, h3]

theorem emits_kho (h0 : strAt w q = .ok 0xe04) (h1 : strAt w (q+1) = .ok 0xe23) (h2 : strAt w (q+2) = .ok 0xe32)
    (h3 : strAt w (q+3) = .ok 0xe04) (h4 : strAt w (q+4) = .ok 0xe23) (h5 : strAt w (q+5) = .ok 0xe32)
    (h6 : strAt w (q+6) = .ok 0xe04) (ht : q + 7 < t) (l : Bool) :
    shapeOf (parseThCons thaiCType w q t l) =
      .ok ((if l then [] else [(q+3, false), (q+4, false), (q+3, true)]) ++
        [(q+3, false), (q+4, false), (q+3, true), (q+2, false), (q+1, false)]) := by
  have t0 : q < t := by omega
  have t1 : q + 1 < t := by omega
  have t2 : q + 2 < t := by omega
  have t3 : q + 3 < t := by omega
  have t4 : q + 4 < t := by omega
  have t5 : q + 5 < t := by omega
  have t6 : q + 6 < t := by omega
  have u1 : ¬ (t ≤ q + 1) := by omega
  have u2 : ¬ (t ≤ q + 2) := by omega
  have u4 : ¬ (t ≤ q + 4) := by omega
  have u5 : ¬ (q + 5 = t) := by omega
  have u6 : ¬ (t ≤ q + 5) := by omega
  cases l
  · eval_rules [h0, h1, h2, h3, h4, h5, h6, t1, t2, t3, t4, t5, t6, u1, u2, u4, u5, u6]
  · eval_rules [h0, h1, h2, h3, h4, h5, h6, t1, t2, t3, t4, t5, t6, u1, u2, u4, u5, u6]

theorem emits_kho_end (h0 : strAt w q = .ok 0xe04) (h1 : strAt w (q+1) = .ok 0xe23) (h2 : strAt w (q+2) = .ok 0xe32)
    (h3 : strAt w (q+3) = .ok 0xe04) (h4 : strAt w (q+4) = .ok 0xe32) (l : Bool) :
    shapeOf (parseThCons thaiCType w q (q + 5) l) =
      .ok ((if l then [] else [(q+3, false), (q+4, false), (q+3, true)]) ++
        [(q+3, false), (q+4, false), (q+3, true), (q+2, false), (q+1, false)]) := by
  cases l
  · eval_rules [h0, h1, h2, h3, h4]
  · eval_rules [h0, h1, h2, h3, h4]

theorem emits_kho_last (h0 : strAt w q = .ok 0xe04) (h1 : strAt w (q+1) = .ok 0xe32) (l : Bool) :
    shapeOf (parseThCons thaiCType w q (q + 2) l) = .ok [(q+2, false)] := by
  cases l <;> eval_rules [h0, h1]

/-! ## The word -/

/-- ราค, `n` times, then า -/
def long (n : Nat) : U16Str := (List.replicate n [0xe23, 0xe32, 0xe04]).flatten ++ [0xe32]

theorem long_length (n : Nat) : (long n).length = 3 * n + 1 := by
  simp [long]; omega

theorem long_at (n i : Nat) (h : i < 3 * n) :
    (long n)[i]? = some (if i % 3 = 0 then 0xe23 else if i % 3 = 1 then 0xe32 else 0xe04) := by
  induction n generalizing i with
  | zero => omega
  | succ n ih =>
    have e : long (n + 1) = [0xe23, 0xe32, 0xe04] ++ long n := by simp [long, List.replicate_succ]
    rw [e]
    by_cases hi : i < 3
    · have : i = 0 ∨ i = 1 ∨ i = 2 := by omega
      rcases this with rfl | rfl | rfl <;> rfl
    · rw [List.getElem?_append_right (by simp; omega)]
      have := ih (i - 3) (by omega)
      simp only [List.length_cons, List.length_nil]
      rw [this, show (i - 3) % 3 = i % 3 by omega]

theorem long_last (n : Nat) : (long n)[3 * n]? = some 0xe32 := by
  unfold long
  rw [List.getElem?_append_right (by simp; omega)]
  simp
  rw [show 3 * n - n * 3 = 0 by omega]
  rfl

/-! ## The pool -/

/-- The first pending state at or behind `p` is at `p`, with flag `f`. -/
def Front (p : Nat) (f : Bool) (l : StatePool) : Prop :=
  ∃ x, l.find? (fun x => decide (p ≤ x.pos)) = some x ∧ x.pos = p ∧ x.linked = f

theorem Front.excl {p : Nat} {l : StatePool} (h : Front p false l) : ¬ Front p true l := by
  rintro ⟨y, hy, -, h2⟩
  obtain ⟨x, hx, -, h1⟩ := h
  rw [hx] at hy
  cases hy
  rw [h1] at h2
  cases h2

theorem front_same (l : StatePool) (s : PState) : Front s.pos s.linked (StatePool.add l s) := by
  induction l with
  | nil => exact ⟨s, by simp [StatePool.add], rfl, rfl⟩
  | cons a l ih =>
    rw [StatePool.add]
    split
    · rename_i h
      exact ⟨_, List.find?_cons_of_pos (by simp [h.1]), h.1, h.2⟩
    · split
      · exact ⟨s, by simp [List.find?_cons], rfl, rfl⟩
      · rename_i h
        obtain ⟨x, h1, h2, h3⟩ := ih
        exact ⟨x, by simp [List.find?_cons, show ¬ s.pos ≤ a.pos by omega, h1], h2, h3⟩

theorem front_other (l : StatePool) (s : PState) {p : Nat} (hp : s.pos ≠ p) (f : Bool) :
    Front p f (StatePool.add l s) ↔ Front p f l := by
  induction l with
  | nil =>
    unfold Front
    simp only [StatePool.add, List.find?_cons, List.find?_nil]
    constructor
    · rintro ⟨x, h1, h2, -⟩
      split at h1
      · cases h1; exact absurd h2 hp
      · cases h1
    · rintro ⟨x, h1, -⟩; cases h1
  | cons a l ih =>
    rw [StatePool.add]
    split
    · rename_i h
      unfold Front
      simp only [List.find?_cons]
      by_cases hpa : p ≤ a.pos
      · simp only [hpa, decide_true]
        constructor
        · rintro ⟨x, h1, h2, h3⟩
          cases h1
          exact absurd (h.1.symm.trans h2) hp
        · rintro ⟨x, h1, h2, h3⟩
          cases h1
          exact absurd (h.1.symm.trans h2) hp
      · simp only [hpa, decide_false]
    · split
      · unfold Front
        simp only [List.find?_cons]
        by_cases hps : p ≤ s.pos
        · simp only [hps, decide_true]
          constructor
          · rintro ⟨x, h1, h2, -⟩; cases h1; exact absurd h2 hp
          · rintro ⟨x, h1, h2, -⟩
            rw [show decide (p ≤ a.pos) = true by simp; omega] at h1
            cases h1
            omega
        · simp only [hps, decide_false]
      · unfold Front at ih ⊢
        simp only [List.find?_cons]
        split
        · exact Iff.rfl
        · exact ih

theorem front_cons {a : PState} {l : StatePool} {p : Nat} (h : a.pos < p) (f : Bool) :
    Front p f (a :: l) ↔ Front p f l := by
  unfold Front
  simp [List.find?_cons, show ¬ p ≤ a.pos by omega]

/-! ## The potential -/

/-- The turns that a state at `p` will cost at least. -/
def weight (n p : Nat) : Nat := if p % 3 = 2 ∧ p < 3 * n then 2 ^ (n - 1 - p / 3) else 0

def total (n : Nat) (l : StatePool) : Nat := (l.map fun s => weight n s.pos).sum

theorem total_add (n : Nat) (l : StatePool) (s : PState) : total n l ≤ total n (StatePool.add l s) := by
  induction l with
  | nil => simp [total]
  | cons a l ih =>
    rw [StatePool.add]
    unfold total at ih ⊢
    split
    · simp
    · split
      · simp
      · simp; exact ih

theorem total_new (n : Nat) (l : StatePool) (s : PState) (h : ¬ Front s.pos s.linked l) :
    total n (StatePool.add l s) = total n l + weight n s.pos := by
  induction l with
  | nil => simp [total, StatePool.add]
  | cons a l ih =>
    rw [StatePool.add]
    split
    · rename_i hc
      exact absurd ⟨a, by simp [List.find?_cons, hc.1], hc.1, hc.2⟩ h
    · split
      · unfold total; simp; omega
      · rename_i h2
        have := ih (fun hf => h ((front_cons (by omega) _).mpr hf))
        unfold total at this ⊢
        simp only [List.map_cons, List.sum_cons, this]
        omega

/-- Adding first an unlinked and then a linked state at `p`. -/
theorem add_pair (n : Nat) {l : StatePool} {a b c : PState} {p : Nat} (ha : a.pos = p) (ha' : a.linked = false)
    (hb : b.pos = p + 1) (hc : c.pos = p) (hc' : c.linked = true) (h : ¬ Front p false l) :
    total n l + 2 * weight n p ≤ total n (((l.add a).add b).add c) ∧ ¬ Front p false (((l.add a).add b).add c) ∧
    ∀ p' f, p' ≠ p → p' ≠ p + 1 → (Front p' f (((l.add a).add b).add c) ↔ Front p' f l) := by
  have h1 := total_new n l a (by rw [ha, ha']; exact h)
  have f1 : Front p false (l.add a) := by have := front_same l a; rwa [ha, ha'] at this
  have h2 := total_add n (l.add a) b
  have f2 : Front p false ((l.add a).add b) := (front_other _ _ (by omega) _).mpr f1
  have h3 := total_new n ((l.add a).add b) c (by rw [hc, hc']; exact f2.excl)
  have f3 : Front p true (((l.add a).add b).add c) := by
    have := front_same ((l.add a).add b) c; rwa [hc, hc'] at this
  rw [ha] at h1
  rw [hc] at h3
  refine ⟨by omega, fun hf => hf.excl f3, fun p' f n1 n2 => ?_⟩
  rw [front_other _ _ (by omega), front_other _ _ (by omega), front_other _ _ (by omega)]

/-! ## One turn -/

structure Inv (n : Nat) (l : StatePool) : Prop where
  pool : Pool (fun _ => True) l
  stops : ∀ s ∈ l, s.stop = 3 * n + 1
  flags : ∀ s ∈ l, s.linked = true → s.pos < 3 * n → s.pos % 3 = 2
  free : ∀ a l', l = a :: l' → ∀ p, a.pos < p → p % 3 = 2 → p < 3 * n → ¬ Front p false l'

/-- New states, all behind the one taken out. -/
structure Fresh (n q : Nat) (x : PState) : Prop where
  stop : x.stop = 3 * n + 1
  pos : q < x.pos
  flag : x.linked = true → x.pos < 3 * n → x.pos % 3 = 2

theorem Inv.next {n : Nat} {s : PState} {pool : StatePool} (h : Inv n (s :: pool)) (xs : List PState)
    (hx : ∀ x ∈ xs, Fresh n s.pos x)
    (hf : ∀ p, s.pos < p → p % 3 = 2 → p < 3 * n → ¬ Front p false (xs.foldl StatePool.add pool)) :
    Inv n (xs.foldl StatePool.add pool) := by
  have key : ∀ (xs : List PState) (l : StatePool), (∀ x ∈ xs, Fresh n s.pos x) → Pool (fun _ => True) l →
      (∀ x ∈ l, x.stop = 3 * n + 1 ∧ s.pos ≤ x.pos ∧ (x.linked = true → x.pos < 3 * n → x.pos % 3 = 2)) →
      Pool (fun _ => True) (xs.foldl StatePool.add l) ∧ ∀ x ∈ xs.foldl StatePool.add l,
        x.stop = 3 * n + 1 ∧ s.pos ≤ x.pos ∧ (x.linked = true → x.pos < 3 * n → x.pos % 3 = 2) := by
    intro xs
    induction xs with
    | nil => intro l _ h1 h2; exact ⟨h1, h2⟩
    | cons a xs ih =>
      intro l hx h1 h2
      rw [List.foldl_cons]
      have ha := hx a (by simp)
      refine ih _ (fun x hx' => hx x (by simp [hx'])) (.add a trivial h1) fun x hx' => ?_
      rcases mem_poolAdd hx' with h | rfl | ⟨y, hy, -, -, rfl⟩
      · exact h2 x h
      · exact ⟨ha.stop, Nat.le_of_lt ha.pos, ha.flag⟩
      · exact h2 y hy
  have hp : Pool (fun _ => True) pool := .pop h.pool
  obtain ⟨k1, k2⟩ := key xs pool hx hp fun x hxp =>
    ⟨h.stops x (by simp [hxp]), (List.pairwise_cons.mp (C45_min h.pool)).1 x hxp, h.flags x (by simp [hxp])⟩
  refine ⟨k1, fun x hx => (k2 x hx).1, fun x hx => (k2 x hx).2.2, ?_⟩
  intro a l' e p h1 h2 h3 h4
  have := (k2 a (by rw [e]; simp)).2.1
  refine hf p (by omega) h2 h3 ?_
  rw [e]
  exact (front_cons h1 _).mpr h4

theorem long_str (n i : Nat) (h : i < 3 * n) :
    strAt (long n) i = .ok (if i % 3 = 0 then 0xe23 else if i % 3 = 1 then 0xe32 else 0xe04) := by
  simp only [strAt, long_at n i h]

theorem long_str_last (n : Nat) : strAt (long n) (3 * n) = .ok 0xe32 := by
  simp only [strAt, long_last]

theorem str0 {n i : Nat} (h : i < 3 * n) (hi : i % 3 = 0) : strAt (long n) i = .ok 0xe23 := by
  rw [long_str n i h, if_pos hi]

theorem str1 {n i : Nat} (h : i ≤ 3 * n) (hi : i % 3 = 1 ∨ i = 3 * n) : strAt (long n) i = .ok 0xe32 := by
  rcases hi with hi | rfl
  · rw [long_str n i (by omega), if_neg (by omega), if_pos hi]
  · exact long_str_last n

theorem str2 {n i : Nat} (h : i < 3 * n) (hi : i % 3 = 2) : strAt (long n) i = .ok 0xe04 := by
  rw [long_str n i h, if_neg (by omega), if_neg (by omega)]

theorem long_abbr {n : Nat} {s : PState} (h : s.pos ≤ 3 * n) (hs : s.stop = 3 * n + 1) :
    findAbbr thaiCType (long n) s = .ok none ∨ n = 0 := by
  rcases Nat.eq_zero_or_pos n with hn | hn
  · exact .inr hn
  left
  unfold findAbbr
  rcases Nat.eq_zero_or_pos s.pos with h0 | h0
  · have e : long n = 0xe23 :: 0xe32 :: (long n).drop 2 := by
      obtain ⟨m, rfl⟩ : ∃ m, n = m + 1 := ⟨n - 1, by omega⟩
      simp [long, List.replicate_succ]
    have e2 : abbrScan thaiCType (long n) 0 (3 * n + 1) 0 = .ok none := by
      rw [e]
      rw [abbrScan]
      simp only [consR, if_true]
      rw [if_pos (by omega), if_neg (by omega), abbrScan]
      simp only [consA]
      rw [if_pos (by omega)]
      simp
    simp only [h0, abbrAllowed, hs, List.drop_zero]
    simp only [Nat.lt_irrefl, gt_iff_lt, if_false, ok_bind, if_true, e2]
    rfl
  · obtain ⟨c, hc, hne⟩ : ∃ c, strAt (long n) (s.pos - 1) = .ok c ∧ ¬ (c = ch!" " ∨ c = ch!".") := by
      refine ⟨_, long_str n (s.pos - 1) (by omega), ?_⟩
      split
      · decide
      · split <;> decide
    have : abbrAllowed (long n) s.pos = .ok false := by
      rw [abbrAllowed, if_pos h0, hc, ok_bind, decide_eq_false hne]; rfl
    rw [this, ok_bind]
    rfl

/-- the states added by the emits -/
def mkState (s : PState) (e : Emit) : PState := ⟨e.pos, s.stop, addSyl s e.p e.pos, e.linked⟩

theorem addEmits_eq (pool : StatePool) (s : PState) (es : List Emit) :
    addEmits pool s es = (es.map (mkState s)).foldl StatePool.add pool := by
  rw [List.foldl_map]
  rfl

theorem step_eq {n : Nat} (hn : 0 < n) {s : PState} {pool : StatePool} {acc : PronunDAG} (h : s.pos ≤ 3 * n)
    (hs : s.stop = 3 * n + 1) {pool' : StatePool} (hc : parseChar thaiCType (long n) s pool = .ok pool') :
    parseStep thaiCType (long n) none [] (s :: pool, acc) = .ok (.inl (pool', acc)) := by
  have ha : findAbbr thaiCType (long n) s = .ok none := (long_abbr h hs).resolve_right (by omega)
  simp only [parseStep, long_length]
  rw [if_neg (by omega), if_neg (by omega)]
  simp only [pure_eq, ok_bind, List.length_nil, gt_iff_lt, Nat.lt_irrefl, if_false, ha, hc]

theorem char_cons {n : Nat} {s : PState} {pool : StatePool} {c : U16} (h : strAt (long n) s.pos = .ok c)
    (hc : thaiCType.isCons c = true) {sh : List (Nat × Bool)}
    (he : shapeOf (parseThCons thaiCType (long n) s.pos s.stop s.linked) = .ok sh) :
    ∃ xs : List PState, parseChar thaiCType (long n) s pool = .ok (xs.foldl StatePool.add pool) ∧
      (∀ x ∈ xs, x.stop = s.stop) ∧ xs.map (fun x => (x.pos, x.linked)) = sh := by
  unfold shapeOf at he
  obtain ⟨es, h1, h2⟩ := bind_eq_ok.mp he
  refine ⟨es.map (mkState s), ?_, ?_, ?_⟩
  · unfold parseChar
    rw [h, ok_bind, if_pos hc, h1, ok_bind, addEmits_eq]
    rfl
  · intro x hx
    obtain ⟨e, -, rfl⟩ := List.mem_map.mp hx
    rfl
  · rw [List.map_map]
    cases h2
    rfl

theorem char_aa {n : Nat} {s : PState} {pool : StatePool} (h : strAt (long n) s.pos = .ok 0xe32) :
    parseChar thaiCType (long n) s pool = .ok pool := by
  unfold parseChar
  rw [h, ok_bind]
  simp only [consA, ldA]
  rfl

theorem weight_step {n q : Nat} (h : q % 3 = 2) (hq : q + 3 < 3 * n) : weight n q = 2 * weight n (q + 3) := by
  unfold weight
  rw [if_pos ⟨h, by omega⟩, if_pos ⟨by omega, hq⟩, show n - 1 - q / 3 = (n - 1 - (q + 3) / 3) + 1 by omega, Nat.pow_succ]
  omega

theorem map3 {xs : List PState} {a b c : Nat × Bool} (h : xs.map (fun x => (x.pos, x.linked)) = [a, b, c]) :
    ∃ x y z, xs = [x, y, z] ∧ (x.pos, x.linked) = a ∧ (y.pos, y.linked) = b ∧ (z.pos, z.linked) = c := by
  match xs, h with
  | [x, y, z], h =>
    simp only [List.map_cons, List.map_nil, List.cons.injEq, and_true] at h
    exact ⟨x, y, z, rfl, h.1, h.2.1, h.2.2⟩

theorem map1 {xs : List PState} {a : Nat × Bool} (h : xs.map (fun x => (x.pos, x.linked)) = [a]) :
    ∃ x, xs = [x] ∧ (x.pos, x.linked) = a := by
  match xs, h with
  | [x], h =>
    simp only [List.map_cons, List.map_nil, List.cons.injEq, and_true] at h
    exact ⟨x, rfl, h⟩

theorem map5 {xs : List PState} {a b c d e : Nat × Bool}
    (h : xs.map (fun x => (x.pos, x.linked)) = [a, b, c, d, e]) :
    ∃ x y z u v, xs = [x, y, z, u, v] ∧ (x.pos, x.linked) = a ∧ (y.pos, y.linked) = b ∧ (z.pos, z.linked) = c ∧
      (u.pos, u.linked) = d ∧ (v.pos, v.linked) = e := by
  match xs, h with
  | [x, y, z, u, v], h =>
    simp only [List.map_cons, List.map_nil, List.cons.injEq, and_true] at h
    exact ⟨x, y, z, u, v, rfl, h⟩

theorem foldl_three (l : StatePool) (x y z : PState) (ys : List PState) :
    ([x, y, z] ++ ys).foldl StatePool.add l = ys.foldl StatePool.add (((l.add x).add y).add z) := rfl

theorem turn {n : Nat} (hn : 0 < n) {s : PState} {pool : StatePool} {acc : PronunDAG} (h : Inv n (s :: pool)) :
    ∃ pool' acc', parseStep thaiCType (long n) none [] (s :: pool, acc) = .ok (.inl (pool', acc')) ∧ Inv n pool' ∧
      total n (s :: pool) ≤ total n pool' + 1 ∧ (s.pos = 0 → 2 ^ n ≤ total n pool') := by
  have hst := h.stops s (by simp)
  have hfree : ∀ p, s.pos < p → p % 3 = 2 → p < 3 * n → ¬ Front p false pool := h.free s pool rfl
  have htot : total n (s :: pool) = weight n s.pos + total n pool := rfl
  by_cases hlen : 3 * n + 1 ≤ s.pos
  · refine ⟨pool, acc.unionDAG s.dag, ?_, h.next [] (by simp) hfree, ?_, by omega⟩
    · simp only [parseStep, long_length]
      rw [if_pos (by omega)]
    · rw [htot, weight, if_neg (by omega)]; omega
  by_cases haa : s.pos % 3 = 1 ∨ s.pos = 3 * n
  · refine ⟨pool, acc, step_eq hn (by omega) hst (char_aa (str1 (by omega) haa)), h.next [] (by simp) hfree, ?_, by omega⟩
    rw [htot, weight, if_neg (by omega)]; omega
  by_cases h0 : s.pos % 3 = 0
  · -- ร
    have hl : s.linked = false := by
      cases hl : s.linked with
      | false => rfl
      | true => have := h.flags s (by simp) hl (by omega); omega
    have sh : shapeOf (parseThCons thaiCType (long n) s.pos s.stop s.linked) =
        .ok [(s.pos+2, false), (s.pos+3, false), (s.pos+2, true)] := by
      rw [hl, hst]
      by_cases he : s.pos + 3 = 3 * n
      · rw [show 3 * n + 1 = s.pos + 4 by omega]
        exact emits_ro_end (str0 (by omega) h0) (str1 (by omega) (by omega)) (str2 (by omega) (by omega))
          (str1 (by omega) (by omega))
      · exact emits_ro (str0 (by omega) h0) (str1 (by omega) (by omega)) (str2 (by omega) (by omega))
          (str0 (by omega) (by omega)) (str1 (by omega) (by omega)) (str2 (by omega) (by omega)) (by omega)
    obtain ⟨xs, k1, k2, k3⟩ := char_cons (pool := pool) (str0 (by omega) h0) consR sh
    obtain ⟨x, y, z, rfl, hx, hy, hz⟩ := map3 k3
    simp only [Prod.mk.injEq] at hx hy hz
    obtain ⟨p1, p2, p3⟩ := add_pair n hx.1 hx.2 (b := y) (by omega) hz.1 hz.2
      (hfree (s.pos + 2) (by omega) (by omega) (by omega))
    refine ⟨_, acc, step_eq hn (by omega) hst k1, h.next _ ?_ ?_, ?_, ?_⟩
    · intro a ha
      have hs' := (k2 a ha).trans hst
      simp only [List.mem_cons, List.not_mem_nil, or_false] at ha
      rcases ha with rfl | rfl | rfl
      · exact ⟨hs', by omega, by simp [hx.2]⟩
      · exact ⟨hs', by omega, by simp [hy.2]⟩
      · exact ⟨hs', by omega, fun _ _ => by omega⟩
    · intro p q1 q2 q3
      by_cases hp : p = s.pos + 2
      · rw [hp]; exact p2
      · exact fun hf => hfree p q1 q2 q3 ((p3 p false hp (by omega)).mp hf)
    · rw [htot, weight, if_neg (by omega)]
      show _ ≤ total n (((pool.add x).add y).add z) + 1
      omega
    · intro hp0
      have hw : weight n (s.pos + 2) = 2 ^ (n - 1) := by
        rw [hp0, weight, if_pos ⟨by omega, by omega⟩]; rfl
      have h2 : 2 ^ n = 2 * 2 ^ (n - 1) := by
        rw [show n = (n - 1) + 1 by omega, Nat.pow_succ]; simp; omega
      show _ ≤ total n (((pool.add x).add y).add z)
      omega
  -- ค
  have h2 : s.pos % 3 = 2 := by omega
  by_cases hlast : s.pos + 1 = 3 * n
  · have sh : shapeOf (parseThCons thaiCType (long n) s.pos s.stop s.linked) = .ok [(s.pos+2, false)] := by
      rw [hst, show 3 * n + 1 = s.pos + 2 by omega]
      exact emits_kho_last (str2 (by omega) h2) (str1 (by omega) (by omega)) _
    obtain ⟨xs, k1, k2, k3⟩ := char_cons (pool := pool) (str2 (by omega) h2) consK sh
    · obtain ⟨x, rfl, k5⟩ := map1 k3
      have k4 : x.pos = s.pos + 2 ∧ x.linked = false := by simpa using k5
      refine ⟨_, acc, step_eq hn (by omega) hst k1, h.next _ ?_ ?_, ?_, by omega⟩
      · intro a ha
        have hs' := (k2 a ha).trans hst
        simp only [List.mem_cons, List.not_mem_nil, or_false] at ha
        subst ha
        exact ⟨hs', by omega, by simp [k4.2]⟩
      · intro p q1 q2 q3; omega
      · have := total_add n pool x
        rw [htot, weight, if_pos ⟨h2, by omega⟩, show n - 1 - s.pos / 3 = 0 by omega]
        show _ ≤ total n (pool.add x) + 1
        omega
  have sh : shapeOf (parseThCons thaiCType (long n) s.pos s.stop s.linked) =
      .ok ((if s.linked then [] else [(s.pos+3, false), (s.pos+4, false), (s.pos+3, true)]) ++
        [(s.pos+3, false), (s.pos+4, false), (s.pos+3, true), (s.pos+2, false), (s.pos+1, false)]) := by
    rw [hst]
    by_cases he : s.pos + 4 = 3 * n
    · rw [show 3 * n + 1 = s.pos + 5 by omega]
      exact emits_kho_end (str2 (by omega) h2) (str0 (by omega) (by omega)) (str1 (by omega) (by omega))
        (str2 (by omega) (by omega)) (str1 (by omega) (by omega)) _
    · exact emits_kho (str2 (by omega) h2) (str0 (by omega) (by omega)) (str1 (by omega) (by omega))
        (str2 (by omega) (by omega)) (str0 (by omega) (by omega)) (str1 (by omega) (by omega))
        (str2 (by omega) (by omega)) (by omega) _
  obtain ⟨xs, k1, k2, k3⟩ := char_cons (pool := pool) (str2 (by omega) h2) consK sh
  obtain ⟨us, vs, rfl, hu, hv⟩ := List.map_eq_append_iff.mp k3
  -- the first three states, unless linked
  have first : total n pool ≤ total n (us.foldl StatePool.add pool) ∧
      (∀ x ∈ us, s.pos < x.pos ∧ (x.linked = true → x.pos < 3 * n → x.pos % 3 = 2)) ∧
      ∀ p, s.pos < p → p % 3 = 2 → p < 3 * n → ¬ Front p false (us.foldl StatePool.add pool) := by
    split at hu
    · obtain rfl := List.map_eq_nil_iff.mp hu
      exact ⟨Nat.le_refl _, by simp, hfree⟩
    · obtain ⟨x, y, z, rfl, hx, hy, hz⟩ := map3 hu
      simp only [Prod.mk.injEq] at hx hy hz
      obtain ⟨p1, p2, p3⟩ := add_pair n hx.1 hx.2 (b := y) (by omega) hz.1 hz.2
        (hfree (s.pos + 3) (by omega) (by omega) (by omega))
      refine ⟨Nat.le_trans (by omega) p1, ?_, ?_⟩
      · intro a ha
        simp only [List.mem_cons, List.not_mem_nil, or_false] at ha
        rcases ha with rfl | rfl | rfl
        · exact ⟨by omega, by simp [hx.2]⟩
        · exact ⟨by omega, by simp [hy.2]⟩
        · exact ⟨by omega, fun _ _ => by omega⟩
      · intro p q1 q2 q3
        by_cases hp : p = s.pos + 3
        · rw [hp]; exact p2
        · exact fun hf => hfree p q1 q2 q3 ((p3 p false hp (by omega)).mp hf)
  obtain ⟨f1, f2, f3⟩ := first
  obtain ⟨x, y, z, u, v, rfl, hx, hy, hz, hu', hv'⟩ := map5 hv
  simp only [Prod.mk.injEq] at hx hy hz hu' hv'
  obtain ⟨p1, p2, p3⟩ := add_pair n hx.1 hx.2 (b := y) (by omega) hz.1 hz.2
    (f3 (s.pos + 3) (by omega) (by omega) (by omega))
  refine ⟨_, acc, step_eq hn (by omega) hst k1, h.next _ ?_ ?_, ?_, by omega⟩
  · intro a ha
    have hs' := (k2 a ha).trans hst
    rcases List.mem_append.mp ha with ha | ha
    · exact ⟨hs', (f2 a ha).1, (f2 a ha).2⟩
    simp only [List.mem_cons, List.not_mem_nil, or_false] at ha
    rcases ha with rfl | rfl | rfl | rfl | rfl
    · exact ⟨hs', by omega, by simp [hx.2]⟩
    · exact ⟨hs', by omega, by simp [hy.2]⟩
    · exact ⟨hs', by omega, fun _ _ => by omega⟩
    · exact ⟨hs', by omega, by simp [hu'.2]⟩
    · exact ⟨hs', by omega, by simp [hv'.2]⟩
  · intro p q1 q2 q3
    rw [List.foldl_append]
    show ¬ Front p false ((((((us.foldl StatePool.add pool).add x).add y).add z).add u).add v)
    rw [front_other _ _ (by omega), front_other _ _ (by omega)]
    by_cases hp : p = s.pos + 3
    · rw [hp]; exact p2
    · exact fun hf => f3 p q1 q2 q3 ((p3 p false hp (by omega)).mp hf)
  · rw [List.foldl_append]
    show _ ≤ total n ((((((us.foldl StatePool.add pool).add x).add y).add z).add u).add v) + 1
    have t1 := total_add n ((((us.foldl StatePool.add pool).add x).add y).add z) u
    have t2 := total_add n (((((us.foldl StatePool.add pool).add x).add y).add z).add u) v
    have := weight_step (n := n) h2 (by omega)
    omega

/-! ## The loop -/

theorem loop_turns {n : Nat} (hn : 0 < n) (N : Nat) : ∀ (pool : StatePool) (acc : PronunDAG), Inv n pool →
    iterLoop (parseStep thaiCType (long n) none []) N (pool, acc) ≠ .diverge → total n pool < N := by
  induction N with
  | zero => intro pool acc _ h; exact absurd rfl h
  | succ N ih =>
    intro pool acc hi h
    cases pool with
    | nil => simp [total]
    | cons s pool =>
      obtain ⟨pool', acc', h1, h2, h3, -⟩ := turn (acc := acc) hn hi
      unfold iterLoop at h
      rw [h1] at h
      have := ih pool' acc' h2 h
      omega

theorem stopLoop_all (rest : U16Str) (p : Nat) (h : ∀ c ∈ rest, isThaiTokenChar thaiCType c = true) :
    stopLoop thaiCType rest p ((p + rest.length : Nat) : Int) = .ok (p + rest.length) := by
  induction rest generalizing p with
  | nil => simp [stopLoop]
  | cons c cs ih =>
    rw [stopLoop, if_pos (by simp), if_pos (h c (by simp))]
    have := ih (p + 1) fun c hc => h c (by simp [hc])
    rw [List.length_cons, show p + (cs.length + 1) = p + 1 + cs.length by omega]
    exact this

theorem long_chars (n : Nat) : ∀ c ∈ long n, c = 0xe23 ∨ c = 0xe32 ∨ c = 0xe04 := by
  intro c hc
  simp only [long, List.mem_append, List.mem_flatten, List.mem_replicate, List.mem_singleton] at hc
  rcases hc with ⟨l, ⟨-, rfl⟩, hc⟩ | rfl
  · simpa using hc
  · simp

theorem long_token (n : Nat) : ∀ c ∈ long n, isThaiTokenChar thaiCType c = true := by
  intro c hc
  rcases long_chars n c hc with rfl | rfl | rfl <;> decide

theorem long_init (n : Nat) :
    parseInit thaiCType (long n) [] = .ok [⟨0, 3 * n + 1, DAG.empty, false⟩] := by
  have hskip : skipNonThai thaiCType (long n) 0 = 0 := by
    unfold skipNonThai
    cases hl : long n with
    | nil => rfl
    | cons c cs =>
      have := long_token n c (by rw [hl]; simp)
      simp [this]
  have hstop : nextWordStop thaiCType (long n) 0 [] = .ok (3 * n + 1) := by
    have := stopLoop_all (long n) 0 (long_token n)
    rw [long_length, Nat.zero_add] at this
    simp only [nextWordStop, List.find?_nil, Option.getD_none, List.drop_zero, long_length]
    exact this
  unfold parseInit refresh
  simp only [hskip, gt_iff_lt, Nat.lt_irrefl, if_false, long_length]
  rw [if_pos (by omega), hstop]
  simp [pure_eq, StatePool.add]

/-- `2 ^ n` turns are not enough. -/
theorem long_turns {n : Nat} (hn : 0 < n) : parseU16Fuel thaiCType (long n) (2 ^ n) none [] = .diverge := by
  unfold parseU16Fuel
  rw [long_init, ok_bind]
  by_contra h
  have hi : Inv n [⟨0, 3 * n + 1, DAG.empty, false⟩] := by
    refine ⟨.add (l := []) _ trivial .empty, by simp, by simp, ?_⟩
    intro a l' e p _ _ _
    cases e
    rintro ⟨x, hx, -⟩
    cases hx
  obtain ⟨pool', acc', h1, h2, -, h4⟩ := turn (acc := DAG.empty) hn hi
  obtain ⟨N, hN⟩ : ∃ N, 2 ^ n = N + 1 := ⟨2 ^ n - 1, by have := Nat.two_pow_pos n; omega⟩
  rw [hN] at h
  unfold iterLoop at h
  rw [h1] at h
  have := loop_turns hn N pool' acc' h2 h
  have := h4 rfl
  omega

end Work

/-! ## Without linked states -/

section
variable {ct : CType} {w : U16Str} {brk : List Int}

theorem exceptLoop_linked (s : PState) : ∀ (fuel : Nat) (m : Match) {ex}, exceptLoop ct w s fuel m = .ok ex →
    ∀ x ∈ ex, x.linked = false
  | 0, _, _, h => by cases h
  | fuel + 1, m, ex, h => by
    cases hb : m.findNext with
    | mk m' b =>
    cases b with
    | false => rw [exceptLoop, hb] at h; cases h; intro x hx; cases hx
    | true =>
      rw [exceptLoop_succ s fuel m m' hb] at h
      have ih := @exceptLoop_linked s fuel m'
      split at h
      · exact ih h
      · obtain ⟨skip, -, h⟩ := bind_eq_ok.mp h
        split at h
        · exact ih h
        · obtain ⟨data, -, h⟩ := bind_eq_ok.mp h
          obtain ⟨strs, -, h⟩ := bind_eq_ok.mp h
          obtain ⟨rest, h1, h⟩ := bind_eq_ok.mp h
          cases h
          intro x hx
          rcases List.mem_cons.mp hx with rfl | hx
          · rfl
          · exact ih h1 x hx

theorem refresh_linked {s s' : PState} (h : refresh ct w brk s = .ok s') : s'.linked = s.linked := by
  unfold refresh at h
  dsimp only at h
  by_cases h1 : skipNonThai ct w s.pos > s.pos
  · simp only [if_pos h1] at h
    split at h
    · obtain ⟨t, -, h⟩ := bind_eq_ok.mp h
      cases h; rfl
    · cases h; rfl
  · simp only [if_neg h1] at h
    split at h
    · obtain ⟨t, -, h⟩ := bind_eq_ok.mp h
      cases h; rfl
    · cases h; rfl

theorem expand_linked (hct : ct.Ok) {dict : Option Dict} {s : PState} (hs : SOK ct w brk s) {ss}
    (h : expand ct w dict brk s = .ok ss) :
    ∀ x ∈ ss, x.linked = true → s.linked = true ∨ Linkable ct w x.pos := by
  unfold expand at h
  split at h
  · obtain ⟨s', h1, h⟩ := bind_eq_ok.mp h
    cases h
    intro x hx hl
    rw [List.mem_singleton] at hx
    subst hx
    rw [refresh_linked h1] at hl
    exact .inl hl
  · have hst := hs.stop (by omega)
    unfold tokenStates at h
    obtain ⟨ex, h1, h⟩ := bind_eq_ok.mp h
    split at h
    · cases h
      unfold exceptions at h1
      split at h1
      · intro x hx hl
        rw [exceptLoop_linked _ _ _ h1 x hx] at hl
        cases hl
      · cases h1; intro x hx; cases hx
    · obtain ⟨r, h2, h⟩ := bind_eq_ok.mp h
      cases r with
      | some s' =>
        cases h
        intro x hx hl
        rw [List.mem_singleton] at hx
        subst hx
        unfold findAbbr at h2
        obtain ⟨b, -, h2⟩ := bind_eq_ok.mp h2
        split at h2
        · obtain ⟨r, -, h2⟩ := bind_eq_ok.mp h2
          split at h2
          · cases h2
          · split at h2
            · cases h2
            · obtain ⟨d, -, h2⟩ := bind_eq_ok.mp h2
              cases h2
              cases hl
        · cases h2
      | none =>
        simp only [charStates] at h
        obtain ⟨c, -, h⟩ := bind_eq_ok.mp h
        split at h
        · obtain ⟨d, -, h⟩ := bind_eq_ok.mp h
          cases h
          intro x hx hl
          rw [List.mem_singleton] at hx
          subst hx
          exact .inl hl
        · obtain ⟨ems, hg, h⟩ := bind_eq_ok.mp h
          cases h
          intro x hx hl
          obtain ⟨e, he, rfl⟩ := List.mem_map.mp hx
          exact .inr ((grammar_ok hct hst.lt hst.le hg e he).1.link hl).2

theorem fold_pool {P : PState → Prop} (ss : List PState) : ∀ (l : StatePool), Pool P l → (∀ x ∈ ss, P x) →
    Pool P (ss.foldl StatePool.add l) := by
  induction ss with
  | nil => exact fun l h _ => h
  | cons a ss ih => exact fun l h hx => ih _ (.add a (hx a (by simp)) h) fun x hx' => hx x (by simp [hx'])

/-- Each turn decreases the measure of the first pending state. -/
theorem loop_bound (hct : ct.Ok) (dict : Option Dict) (hl : ∀ i, ¬ Linkable ct w i) (N : Nat) :
    ∀ (pool : StatePool) (acc : PronunDAG), Pool (fun s => s.linked = false) pool → (∀ s ∈ pool, SOK ct w brk s) →
      (∀ s ∈ pool, s.linked = false) → (∀ s ∈ pool, meas w s + 1 ≤ N) →
      iterLoop (parseStep ct w dict brk) (N + 1) (pool, acc) ≠ .diverge := by
  induction N with
  | zero =>
    intro pool acc _ _ _ h
    cases pool with
    | nil => unfold iterLoop; simp [parseStep]
    | cons s _ => have := h s (by simp); omega
  | succ N ih =>
    intro pool acc hp hs hf hm
    cases pool with
    | nil => unfold iterLoop; simp [parseStep]
    | cons s pool =>
      have hstrict := (List.pairwise_cons.mp (C45_partial false hp)).1
      have hrest : ∀ x ∈ pool, meas w x + 1 ≤ N := by
        intro x hx
        have h1 := hstrict x hx
        have h2 := hm s (by simp)
        have h3 := (hs x (by simp [hx])).pos
        unfold meas at h2 ⊢
        split <;> split at h2 <;> omega
      rw [iterLoop, parseStep_cons hct]
      by_cases hlen : s.pos ≥ w.length
      · rw [if_pos hlen]
        exact ih pool _ (.pop hp) (fun x hx => hs x (by simp [hx])) (fun x hx => hf x (by simp [hx])) hrest
      · rw [if_neg hlen]
        have ht := expand_term hct dict (hs s (by simp)) (by omega)
        cases hx : expand ct w dict brk s with
        | throw e => simp
        | ub => simp
        | diverge => rw [hx] at ht; exact absurd ht (by simp [Res.Term])
        | ok ss =>
          rw [hx] at ht
          have ht : ∀ s' ∈ ss, SOK ct w brk s' ∧ meas w s' < meas w s := ht
          have hlk : ∀ x ∈ ss, x.linked = false := fun x hx' => by
            cases hxl : x.linked with
            | false => rfl
            | true =>
              rcases expand_linked hct (hs s (by simp)) hx x hx' hxl with h | h
              · rw [hf s (by simp)] at h; cases h
              · exact absurd h (hl _)
          have h2 := hm s (by simp)
          rw [ok_bind]
          exact ih _ _ (fold_pool ss pool (.pop hp) hlk)
            (pool_forall (fun _ _ h1 h2 _ _ => sok_merge h1 h2) ss pool (fun x hx => hs x (by simp [hx]))
              fun x hx => (ht x hx).1)
            (pool_forall (fun _ _ _ h _ _ => h) ss pool (fun x hx => hf x (by simp [hx])) hlk)
            (pool_forall (P := fun x => meas w x + 1 ≤ N) (fun _ _ _ h _ _ => h) ss pool hrest
              fun x hx => by have := (ht x hx).2; omega)

theorem parse_bound (hct : ct.Ok) (dict : Option Dict) (hl : ∀ i, ¬ Linkable ct w i) :
    parseU16Fuel ct w (2 * w.length + 3) dict brk ≠ .diverge := by
  unfold parseU16Fuel
  cases h : parseInit ct w brk with
  | throw e => simp
  | ub => simp
  | diverge =>
    exfalso
    unfold parseInit at h
    have := refresh_term (ct := ct) (w := w) (brk := brk) ⟨0, 0, DAG.empty, false⟩
    cases hr : refresh ct w brk ⟨0, 0, DAG.empty, false⟩ with
    | ok s => rw [hr] at h; cases h
    | throw e => rw [hr] at h; cases h
    | ub => rw [hr] at h; cases h
    | diverge => rw [hr] at this; exact this
  | ok pool =>
    rw [ok_bind]
    have hsok := parseInit_sok hct h
    unfold parseInit at h
    obtain ⟨s, hr, h⟩ := bind_eq_ok.mp h
    cases h
    have hf := refresh_linked hr
    refine loop_bound hct dict hl (2 * w.length + 2) _ _ (.add s hf .empty) hsok ?_ ?_
    · intro x hx
      rw [StatePool.add, List.mem_singleton] at hx
      rw [hx]; exact hf
    · intro x _
      unfold meas
      split <;> omega

end
end Thpronun
