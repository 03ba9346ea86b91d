import Verif.Props.Compact
import Verif.Props.Chains
import Verif.Props.States

/-! # Property C95: how many lines the grouped form has -/

namespace Thpronun
open Res Spec

variable {ct : CType} {p : Parser} {word : Str} {w : U16Str} {look : List Nat → Option Str} {d : PronunDAG}

/-! ## A text whose grouped form is exponential -/

/-- ฤกอก ฤกอก … ฤกอก -/
def Spec.bridges : Nat → Str
  | 0 => b!"ฤกอก"
  | n + 1 => b!"ฤกอก " ++ bridges n

def Spec.bridges16 : Nat → U16Str
  | 0 => u!"ฤกอก"
  | n + 1 => u!"ฤกอก " ++ bridges16 n

theorem bridges_16 : ∀ n, fromBytes (bridges n) = .ok (bridges16 n)
  | 0 => by decide +kernel
  | n + 1 => fromBytes_append (by decide +kernel) (bridges_16 n)

theorem bridges_length : ∀ n, (bridges16 n).length = 5 * n + 4
  | 0 => rfl
  | n + 1 => by
    unfold bridges16
    rw [List.length_append, bridges_length n]
    simp only [List.length_cons, List.length_nil]
    omega

/-- The arrows of one ฤกอก: the way from 0 to 4 by 1, by 2, or by both. -/
private def bridge : List (Int × Int) := [(0, 1), (0, 2), (1, 2), (1, 4), (2, 4)]

/-- The arrows of the whole text. -/
private def Span (n : Nat) (a b : Int) : Prop :=
  (∃ k : Nat, k ≤ n ∧ (a - 5 * k, b - 5 * k) ∈ bridge) ∨ ∃ k : Nat, k < n ∧ a = 5 * k + 4 ∧ b = 5 * k + 5

private theorem arrow_iff_read (hct : ct.Ok) {dict : Option Dict} {brk : List Int} (hd : Holds dict look)
    (h : parseU16 ct w dict brk = .ok d) (a b : Int) :
    Arrow d a b ↔ ∃ es, RuleReading ct w look brk es ∧ ∃ e ∈ es, e.key = a ∧ e.target = b := by
  constructor
  · rintro ⟨e, he, rfl⟩
    obtain ⟨es, h1, e', h2, h3, h4, -⟩ := (edge_iff_read hct hd h a e.target e.val).mp
      (DAG.edge_iff.mpr ⟨e, (DAG.mem_outEdges.mp he).1, (DAG.mem_outEdges.mp he).2, rfl, LawfulCppEq.refl _⟩)
    exact ⟨es, h1, e', h2, h3, h4⟩
  · rintro ⟨es, h1, e, h2, h3, h4⟩
    obtain ⟨e', k1, k2, k3, -⟩ := DAG.edge_iff.mp
      ((edge_iff_read hct hd h a b e.val).mpr ⟨es, h1, e, h2, h3, h4, LawfulCppEq.refl _⟩)
    exact ⟨e', DAG.mem_outEdges.mpr ⟨k1, k2⟩, k3⟩

private theorem arrows_of {d : PronunDAG} {l : List (Int × Int)}
    (h : ((d.mFrom.all fun e => decide ((e.key, e.target) ∈ l)) &&
      (l.all fun x => d.mFrom.any fun e => decide (e.key = x.1 ∧ e.target = x.2))) = true)
    (a b : Int) : Arrow d a b ↔ (a, b) ∈ l := by
  rw [Bool.and_eq_true, List.all_eq_true, List.all_eq_true] at h
  constructor
  · rintro ⟨e, he, rfl⟩
    have := h.1 e (DAG.mem_outEdges.mp he).1
    rw [decide_eq_true_eq, (DAG.mem_outEdges.mp he).2] at this
    exact this
  · intro hm
    obtain ⟨e, he, hk⟩ := List.any_eq_true.mp (h.2 _ hm)
    rw [decide_eq_true_eq] at hk
    exact ⟨e, DAG.mem_outEdges.mpr ⟨he, hk.1⟩, hk.2⟩

private theorem bridges_arrows (n : Nat) :
    ∃ d, parseU16 thaiCType (bridges16 n) none [] = .ok d ∧ ∀ a b, Arrow d a b ↔ Span n a b := by
  have hd : Holds none (fun _ => none) := fun _ => rfl
  have hg : GoodLook fun _ => none := fun _ _ h => nomatch h
  induction n with
  | zero =>
    obtain ⟨d, h1, h2⟩ := parsesTo_spec (n := 60) (w := u!"ฤกอก") (dict := none) (brk := [])
      (P := fun d => (d.mFrom.all fun e => decide ((e.key, e.target) ∈ bridge)) &&
        (bridge.all fun x => d.mFrom.any fun e => decide (e.key = x.1 ∧ e.target = x.2))) (by decide +kernel)
    refine ⟨d, h1, fun a b => (arrows_of h2 a b).trans ⟨fun h => .inl ⟨0, Nat.le_refl _, ?_⟩, ?_⟩⟩
    · simpa using h
    · rintro (⟨k, hk, h⟩ | ⟨k, hk, -⟩)
      · obtain rfl : k = 0 := by omega
        simpa using h
      · omega
  | succ n ih =>
    obtain ⟨d2, h2, k2⟩ := ih
    obtain ⟨d1, h1, k1⟩ := parsesTo_spec (n := 60) (w := u!"ฤกอก ") (dict := none) (brk := [])
      (P := fun d => (d.mFrom.all fun e => decide ((e.key, e.target) ∈ bridge ++ [(4, 5)])) &&
        ((bridge ++ [(4, 5)]).all fun x => d.mFrom.any fun e => decide (e.key = x.1 ∧ e.target = x.2))) (by decide +kernel)
    have k1 := arrows_of k1
    have hv : (bridges16 n).head? = some ch!"ฤ" := by cases n <;> rfl
    have C : Cut thaiCType u!"ฤกอก " (bridges16 n) [] [] ch!" " ch!"ฤ" :=
      ⟨rfl, hv, .inr (.inl ⟨by unfold IsText; decide +kernel, .inr (.inl rfl)⟩), by simp, by simp,
        fun h => absurd h (by unfold IsText; decide +kernel), fun _ => .inl rfl⟩
    obtain ⟨d, -, -, -, h, -⟩ := C63_listed thaiCType_ok hg hd C (by simp) h1 h2
    refine ⟨d, h, fun a b => ?_⟩
    have m : ∀ {x : Int}, 0 ≤ x → movedEnd 5 x = x + 5 := fun {x} hx => by unfold movedEnd; rw [if_neg (by omega)]; rfl
    have low : ∀ a b, Span n a b → 0 ≤ a ∧ 0 ≤ b := by
      have hb : ∀ x ∈ bridge, 0 ≤ x.1 ∧ 0 ≤ x.2 := by decide
      rintro a b (⟨k, -, h⟩ | ⟨k, -, h⟩)
      · have := hb _ h
        dsimp only at this
        omega
      · omega
    have hR := C63_readings thaiCType_ok hg C
    obtain ⟨r1, hr1, -⟩ := (arrow_iff_read thaiCType_ok hd h1 0 1).mp ((k1 0 1).mpr (by decide))
    obtain ⟨r2, hr2, -⟩ := (arrow_iff_read thaiCType_ok hd h2 0 1).mp ((k2 0 1).mpr (.inl ⟨0, by omega, by decide⟩))
    have key : Arrow d a b ↔ (a, b) ∈ bridge ++ [(4, 5)] ∨ Span n (a - 5) (b - 5) := by
      rw [arrow_iff_read thaiCType_ok hd h]
      constructor
      · rintro ⟨es, hr, e, he, rfl, rfl⟩
        obtain ⟨es1, es2, i1, i2, rfl⟩ := (hR es).mp hr
        rcases List.mem_append.mp he with he | he
        · exact .inl ((k1 _ _).mp ((arrow_iff_read thaiCType_ok hd h1 _ _).mpr ⟨es1, i1, e, he, rfl, rfl⟩))
        · obtain ⟨e', he', rfl⟩ := List.mem_map.mp he
          have hs := (k2 _ _).mp ((arrow_iff_read thaiCType_ok hd h2 _ _).mpr ⟨es2, i2, e', he', rfl, rfl⟩)
          have hl := low _ _ hs
          refine .inr ?_
          show Span n (movedEnd 5 e'.key - 5) (movedEnd 5 e'.target - 5)
          rw [m hl.1, m hl.2, Int.add_sub_cancel, Int.add_sub_cancel]
          exact hs
      · rintro (h | hs)
        · obtain ⟨es1, i1, e, he, hk, ht⟩ := (arrow_iff_read thaiCType_ok hd h1 _ _).mp ((k1 _ _).mpr h)
          exact ⟨_, (hR _).mpr ⟨es1, r2, i1, hr2, rfl⟩, e, List.mem_append_left _ he, hk, ht⟩
        · obtain ⟨es2, i2, e, he, hk, ht⟩ := (arrow_iff_read thaiCType_ok hd h2 _ _).mp ((k2 _ _).mpr hs)
          have hl := low _ _ hs
          refine ⟨_, (hR _).mpr ⟨r1, es2, hr1, i2, rfl⟩, later 5 e, List.mem_append_right _ (List.mem_map.mpr ⟨e, he, rfl⟩), ?_, ?_⟩
          · show movedEnd 5 e.key = a
            rw [hk, m hl.1]; omega
          · show movedEnd 5 e.target = b
            rw [ht, m hl.2]; omega
    rw [key]
    constructor
    · rintro (h | ⟨k, hk, h⟩ | ⟨k, hk, h⟩)
      · rcases List.mem_append.mp h with h | h
        · exact .inl ⟨0, by omega, by simpa using h⟩
        · cases List.mem_singleton.mp h
          exact .inr ⟨0, by omega, rfl, rfl⟩
      · refine .inl ⟨k + 1, by omega, ?_⟩
        have e1 : a - 5 * ((k + 1 : Nat) : Int) = a - 5 - 5 * k := by push_cast; omega
        have e2 : b - 5 * ((k + 1 : Nat) : Int) = b - 5 - 5 * k := by push_cast; omega
        rw [e1, e2]
        exact h
      · exact .inr ⟨k + 1, by omega, by push_cast; omega, by push_cast; omega⟩
    · rintro (⟨k, hk, h⟩ | ⟨k, hk, h⟩)
      · cases k with
        | zero => exact .inl (List.mem_append_left _ (by simpa using h))
        | succ k =>
          refine .inr (.inl ⟨k, by omega, ?_⟩)
          have e1 : a - 5 * ((k + 1 : Nat) : Int) = a - 5 - 5 * k := by push_cast; omega
          have e2 : b - 5 * ((k + 1 : Nat) : Int) = b - 5 - 5 * k := by push_cast; omega
          rw [e1, e2] at h
          exact h
      · cases k with
        | zero =>
          refine .inl (List.mem_append_right _ ?_)
          obtain ⟨rfl, rfl⟩ := h
          decide
        | succ k => exact .inr (.inr ⟨k, by omega, by push_cast at h; omega, by push_cast at h; omega⟩)

/-! ## Graphs in which nothing can be joined -/

/-- A way along `R` to an end, as the nodes after the first. -/
private inductive Trail (R : Int → Int → Prop) : Int → List Int → Prop
  | last {u v : Int} : R u v → (∀ x, ¬ R v x) → Trail R u [v]
  | step {u v : Int} {l : List Int} : R u v → Trail R v l → Trail R u (v :: l)

private theorem trail_path {V : Type} {f : DAG V} {n : Int} {l : List Int} (h : Trail (Arrow f) n l) :
    ∃ q, MaxPath f n q ∧ q.map Entry.target = l := by
  induction h with
  | @last u v h hv =>
    obtain ⟨e, he, rfl⟩ := h
    refine ⟨[e], .last he ?_, rfl⟩
    by_contra hne
    obtain ⟨x, hx⟩ := List.exists_mem_of_ne_nil _ hne
    exact hv x.target ⟨x, hx, rfl⟩
  | step h _ ih =>
    obtain ⟨e, he, rfl⟩ := h
    obtain ⟨q, hq, rfl⟩ := ih
    exact ⟨e :: q, .step he hq, rfl⟩

/-- If every node with a way out has two ways in or two ways out to different nodes, then the grouped form has a line for every
way along the nodes. -/
private theorem lines_of_trails (d : PronunDAG)
    (hsolid : ∀ v x, Arrow d v x → (∃ y, y ≠ x ∧ Arrow d v y) ∨ (∀ y, ¬ Arrow d y v) ∨ ∃ y z, y ≠ z ∧ Arrow d y v ∧ Arrow d z v)
    {f : FracDAG} {latt : PronunLatt} (hf : PronunDAG.fracDAG d = .ok f) (hlatt : FracDAG.lattice f = .ok latt) (L : List (List Int))
    (hL : L.Nodup) (ht : ∀ l ∈ L, Trail (Arrow d) 0 l) : L.length ≤ latt.length := by
  obtain ⟨hc0, hr0, hs0, har0⟩ := toFrac_spec d
  have len : ∀ {V : Type} {l : List (Entry V)}, l.length = 1 → ∀ x ∈ l, ∀ y ∈ l, x = y := by
    intro V l hl x hx y hy
    obtain ⟨a, rfl⟩ := List.length_eq_one_iff.mp hl
    rw [List.mem_singleton] at hx hy
    rw [hx, hy]
  have hinn : ∀ {y v : Int}, Arrow d y v → ∃ e ∈ (d.toFrac).inEdges v, e.target = y := by
    intro y v h
    obtain ⟨e, he, rfl⟩ := (har0 y v).mpr h
    obtain ⟨m1, m2⟩ := DAG.mem_outEdges.mp he
    subst m2
    exact ⟨⟨e.target, e.key, e.val⟩, DAG.mem_inEdges.mpr ⟨hc0.mem_swap.mpr m1, rfl⟩, rfl⟩
  have hnone : d.toFrac.mFrom.find? (FracDAG.isPass d.toFrac) = none := by
    rw [List.find?_eq_none]
    intro e he hp
    unfold FracDAG.isPass DAG.outDegree DAG.inDegree at hp
    rw [Bool.and_eq_true, decide_eq_true_eq, decide_eq_true_eq] at hp
    have har : Arrow d e.key e.target := (har0 _ _).mp ⟨e, DAG.mem_outEdges.mpr ⟨he, rfl⟩, rfl⟩
    rcases hsolid _ _ har with ⟨y, hy, hay⟩ | h0 | ⟨y, z, hyz, hy, hz⟩
    · obtain ⟨e', he', rfl⟩ := (har0 _ _).mpr hay
      exact hy (congrArg Entry.target (len hp.1 e' he' e (DAG.mem_outEdges.mpr ⟨he, rfl⟩)))
    · obtain ⟨x, hx⟩ := List.length_eq_one_iff.mp hp.2
      have : x ∈ d.toFrac.inEdges e.key := by rw [hx]; exact List.mem_singleton.mpr rfl
      obtain ⟨m1, m2⟩ := DAG.mem_inEdges.mp this
      refine h0 x.target ((har0 _ _).mp ⟨⟨x.target, x.key, x.val⟩, DAG.mem_outEdges.mpr ⟨hc0.mem_swap.mp m1, rfl⟩, m2⟩)
    · obtain ⟨e1, k1, rfl⟩ := hinn hy
      obtain ⟨e2, k2, rfl⟩ := hinn hz
      exact hyz (congrArg Entry.target (len hp.2 e1 k1 e2 k2))
  have e1 : FracDAG.mergeSinglesLoop (d.toFrac.mFrom.length + 1) d.toFrac = .ok d.toFrac := by
    rw [FracDAG.mergeSinglesLoop, hnone]
  obtain ⟨d2, e2, -, -, -, har2, -⟩ :=
    FracDAG.mergeParallelsLoop_spec (d.toFrac.mFrom.length + 1) 0 d.toFrac hc0 (by omega) (Nat.lt_succ_self _)
  have hf' : PronunDAG.fracDAG d = .ok d2 := by
    unfold PronunDAG.fracDAG FracDAG.mergeFractions FracDAG.mergeSingles
    rw [e1]; exact e2
  rw [hf] at hf'
  cases hf'
  have hA : Arrow f = Arrow d := by
    funext u v
    exact propext ((har2 u v).trans (har0 u v))
  unfold FracDAG.lattice at hlatt
  rw [FracDAG.nodeLattice_walk] at hlatt
  obtain ⟨l', h1, h2⟩ := Res.bind_eq_ok.mp hlatt
  obtain ⟨qs, h3, h4⟩ := Res.bind_eq_ok.mp h1
  cases h4
  cases h2
  obtain ⟨w2, -, -⟩ := DAG.walk_spec f _ 0 qs h3
  have hsub : ∀ l ∈ L, l ∈ qs.map fun q => q.map Entry.target := by
    intro l hl
    obtain ⟨q, hq, rfl⟩ := trail_path (hA ▸ ht l hl)
    exact List.mem_map.mpr ⟨q, (w2 q).mpr hq, rfl⟩
  have := (hL.subperm hsub).length_le
  rw [List.length_map] at this
  unfold PronunLatt.mergeSingles
  rw [List.length_map, List.length_map]
  exact this

/-! ## Counting the ways -/

private def ways : Nat → List (List Int)
  | 0 => [[1, 4], [1, 2, 4], [2, 4]]
  | n + 1 => (ways n).map (fun l => 1 :: 4 :: 5 :: l.map (· + 5)) ++ ((ways n).map (fun l => 1 :: 2 :: 4 :: 5 :: l.map (· + 5)) ++
      (ways n).map fun l => 2 :: 4 :: 5 :: l.map (· + 5))

private theorem ways_length : ∀ n, (ways n).length = 3 ^ (n + 1)
  | 0 => rfl
  | n + 1 => by
    unfold ways
    rw [List.length_append, List.length_append, List.length_map, List.length_map, List.length_map, ways_length n, Nat.pow_succ 3 (n + 1)]
    omega

private theorem shift_inj {a b : List Int} (h : a.map (· + 5) = b.map (· + 5)) : a = b :=
  List.map_injective_iff.mpr (fun x y (h : x + 5 = y + 5) => by omega) h

private theorem ways_nodup : ∀ n, (ways n).Nodup
  | 0 => by decide
  | n + 1 => by
    have ih := ways_nodup n
    unfold ways
    refine List.nodup_append.mpr ⟨ih.map fun a b h => ?_, List.nodup_append.mpr ⟨ih.map fun a b h => ?_, ih.map fun a b h => ?_, ?_⟩, ?_⟩
    · exact shift_inj (List.cons.inj (List.cons.inj (List.cons.inj h).2).2).2
    · exact shift_inj (List.cons.inj (List.cons.inj (List.cons.inj (List.cons.inj h).2).2).2).2
    · exact shift_inj (List.cons.inj (List.cons.inj (List.cons.inj h).2).2).2
    · intro a ha b hb hab
      obtain ⟨x, -, rfl⟩ := List.mem_map.mp ha
      obtain ⟨y, -, rfl⟩ := List.mem_map.mp hb
      exact absurd (List.cons.inj hab).1 (by decide)
    · intro a ha b hb hab
      obtain ⟨x, -, rfl⟩ := List.mem_map.mp ha
      rcases List.mem_append.mp hb with hb | hb
      · obtain ⟨y, -, rfl⟩ := List.mem_map.mp hb
        exact absurd (List.cons.inj (List.cons.inj hab).2).1 (by decide)
      · obtain ⟨y, -, rfl⟩ := List.mem_map.mp hb
        exact absurd (List.cons.inj hab).1 (by decide)

private theorem span_end (n : Nat) (b : Int) : ¬ Span n (5 * n + 4) b := by
  have hb : ∀ x ∈ bridge, x.1 ≤ 2 := by decide
  rintro (⟨k, hk, h⟩ | ⟨k, hk, h, -⟩)
  · have := hb _ h
    dsimp only at this
    omega
  · omega

private theorem span_up {n : Nat} {a b : Int} (h : Span n a b) : Span (n + 1) (a + 5) (b + 5) := by
  rcases h with ⟨k, hk, h⟩ | ⟨k, hk, h1, h2⟩
  · refine .inl ⟨k + 1, by omega, ?_⟩
    have e1 : a + 5 - 5 * ((k + 1 : Nat) : Int) = a - 5 * k := by push_cast; omega
    have e2 : b + 5 - 5 * ((k + 1 : Nat) : Int) = b - 5 * k := by push_cast; omega
    rw [e1, e2]
    exact h
  · exact .inr ⟨k + 1, by omega, by push_cast; omega, by push_cast; omega⟩

private theorem span_low {n : Nat} {a b : Int} (h : (a, b) ∈ bridge) : Span n a b := .inl ⟨0, by omega, by simpa using h⟩

private theorem trail_up {n : Nat} {u : Int} {l : List Int} (h : Trail (Span n) u l) : Trail (Span (n + 1)) (u + 5) (l.map (· + 5)) := by
  induction h with
  | @last u v h hv =>
    refine .last (span_up h) fun x hx => ?_
    -- an end of the shorter text is an end of the longer one
    rcases hx with ⟨k, hk, hx⟩ | ⟨k, hk, h1, h2⟩
    · cases k with
      | zero =>
        have lo : ∀ x ∈ bridge, x.1 ≤ 2 := by decide
        have nn : ∀ x ∈ bridge, 0 ≤ x.2 := by decide
        have := lo _ hx
        dsimp only at this
        rcases h with ⟨k', -, h⟩ | ⟨k', -, -, h⟩
        · have := nn _ h
          dsimp only at this
          push_cast at *
          omega
        · push_cast at *
          omega
      | succ k =>
        refine hv (x - 5) (.inl ⟨k, by omega, ?_⟩)
        have e1 : v + 5 - 5 * ((k + 1 : Nat) : Int) = v - 5 * k := by push_cast; omega
        have e2 : x - 5 * ((k + 1 : Nat) : Int) = x - 5 - 5 * k := by push_cast; omega
        rw [e1, e2] at hx
        exact hx
    · cases k with
      | zero =>
        rcases h with ⟨k', -, h⟩ | ⟨k', -, -, h⟩
        · have nn : ∀ x ∈ bridge, 0 ≤ x.2 := by decide
          have := nn _ h
          dsimp only at this
          push_cast at *
          omega
        · push_cast at *
          omega
      | succ k => exact hv (x - 5) (.inr ⟨k, by omega, by push_cast at h1; omega, by push_cast at h2; omega⟩)
  | step h _ ih => exact .step (span_up h) ih

private theorem ways_trail : ∀ n, ∀ l ∈ ways n, Trail (Span n) 0 l
  | 0 => by
    have e : ∀ x, ¬ Span 0 4 x := fun x => by simpa using span_end 0 x
    intro l hl
    rcases List.mem_cons.mp hl with rfl | hl
    · exact .step (v := 1) (span_low (by decide)) (.last (span_low (by decide)) e)
    · rcases List.mem_cons.mp hl with rfl | hl
      · exact .step (v := 1) (span_low (by decide)) (.step (v := 2) (span_low (by decide)) (.last (span_low (by decide)) e))
      · cases List.mem_singleton.mp hl
        exact .step (v := 2) (span_low (by decide)) (.last (span_low (by decide)) e)
  | n + 1 => by
    have ih := ways_trail n
    have sp : Span (n + 1) 4 5 := .inr ⟨0, by omega, rfl, rfl⟩
    intro l hl
    rcases List.mem_append.mp hl with hl | hl
    · obtain ⟨x, hx, rfl⟩ := List.mem_map.mp hl
      exact .step (span_low (by decide)) (.step (span_low (by decide)) (.step sp (trail_up (ih x hx))))
    · rcases List.mem_append.mp hl with hl | hl
      · obtain ⟨x, hx, rfl⟩ := List.mem_map.mp hl
        exact .step (span_low (by decide)) (.step (span_low (by decide)) (.step (span_low (by decide)) (.step sp (trail_up (ih x hx)))))
      · obtain ⟨x, hx, rfl⟩ := List.mem_map.mp hl
        exact .step (span_low (by decide)) (.step (span_low (by decide)) (.step sp (trail_up (ih x hx))))

private theorem span_solid (n : Nat) (v x : Int) (h : Span n v x) :
    (∃ y, y ≠ x ∧ Span n v y) ∨ (∀ y, ¬ Span n y v) ∨ ∃ y z, y ≠ z ∧ Span n y v ∧ Span n z v := by
  have at_ : ∀ (k : Nat), k ≤ n → ∀ i j : Int, (i, j) ∈ bridge → Span n (5 * k + i) (5 * k + j) := fun k hk i j h =>
    .inl ⟨k, hk, by rw [show 5 * (k : Int) + i - 5 * k = i by omega, show 5 * (k : Int) + j - 5 * k = j by omega]; exact h⟩
  rcases h with ⟨k, hk, h⟩ | ⟨k, hk, rfl, rfl⟩
  · have : ∀ x ∈ bridge, (x.1 = 0 ∧ (x.2 = 1 ∨ x.2 = 2)) ∨ (x.1 = 1 ∧ (x.2 = 2 ∨ x.2 = 4)) ∨ x.1 = 2 := by decide
    have := this _ h
    dsimp only at this
    rcases this with ⟨h1, h2⟩ | ⟨h1, h2⟩ | h1
    · obtain rfl : v = 5 * k + 0 := by omega
      rcases h2 with h2 | h2
      · exact .inl ⟨5 * k + 2, by omega, at_ k hk 0 2 (by decide)⟩
      · exact .inl ⟨5 * k + 1, by omega, at_ k hk 0 1 (by decide)⟩
    · obtain rfl : v = 5 * k + 1 := by omega
      rcases h2 with h2 | h2
      · exact .inl ⟨5 * k + 4, by omega, at_ k hk 1 4 (by decide)⟩
      · exact .inl ⟨5 * k + 2, by omega, at_ k hk 1 2 (by decide)⟩
    · obtain rfl : v = 5 * k + 2 := by omega
      exact .inr (.inr ⟨5 * k + 0, 5 * k + 1, by omega, at_ k hk 0 2 (by decide), at_ k hk 1 2 (by decide)⟩)
  · exact .inr (.inr ⟨5 * k + 1, 5 * k + 2, by omega, at_ k (by omega) 1 4 (by decide), at_ k (by omega) 2 4 (by decide)⟩)

/-- A text of `5 * n + 4` characters whose grouped form has at least `3 ^ (n + 1)` lines. -/
theorem C95_exp (n : Nat) : (bridges16 n).length = 5 * n + 4 ∧ fromBytes (bridges n) = .ok (bridges16 n) ∧
    ∃ d f latt, (Parser.new (fun _ => []) false).parseWord thaiCType (bridges n) = .ok d ∧ PronunDAG.fracDAG d = .ok f ∧
      FracDAG.lattice f = .ok latt ∧ 3 ^ (n + 1) ≤ latt.length := by
  refine ⟨bridges_length n, bridges_16 n, ?_⟩
  obtain ⟨d, h, ha⟩ := bridges_arrows n
  have hd : Holds (Parser.new (fun _ => []) false).exceptDict fun _ => none := fun _ => rfl
  have hg : GoodLook fun _ => none := fun _ _ h => nomatch h
  have h0 : (Parser.new (fun _ => []) false).parseWord thaiCType (bridges n) = .ok d := by
    rw [C37_word _ _ _ (bridges_16 n)]; exact h
  obtain ⟨l, f, latt, h1, h2, h3, -⟩ := C93 thaiCType_ok (bridges_16 n) hd hg h0
  have hA : Arrow d = Span n := by
    funext a b
    exact propext (ha a b)
  refine ⟨d, f, latt, h0, h2, h3, ?_⟩
  rw [← ways_length n]
  refine lines_of_trails d ?_ h2 h3 _ (ways_nodup n) ?_
  · rw [hA]; exact span_solid n
  · rw [hA]; exact ways_trail n

/-- No polynomial in the length of the word bounds the number of lines of the grouped form. -/
theorem C95_false : ¬ ∃ c k : Nat, ∀ word w d f latt, fromBytes word = .ok w →
    (Parser.new (fun _ => []) false).parseWord thaiCType word = .ok d → PronunDAG.fracDAG d = .ok f → FracDAG.lattice f = .ok latt →
      latt.length ≤ c * (w.length + 1) ^ k := by
  rintro ⟨c, k, h⟩
  obtain ⟨n, -, hn⟩ := poly_lt_exp (c * 5 ^ k) k
  obtain ⟨h1, h2, d, f, latt, h3, h4, h5, h6⟩ := C95_exp n
  have h7 := h _ _ d f latt h2 h3 h4 h5
  rw [h1] at h7
  have h8 : c * (5 * n + 4 + 1) ^ k ≤ c * 5 ^ k * (3 * n + 2) ^ k := by
    rw [Nat.mul_assoc, ← Nat.mul_pow]
    exact Nat.mul_le_mul_left _ (Nat.pow_le_pow_left (by omega) _)
  have h9 : 2 ^ n < 2 ^ (n + 1) := Nat.pow_lt_pow_right (by omega) (by omega)
  have h10 : 2 ^ (n + 1) ≤ 3 ^ (n + 1) := Nat.pow_le_pow_left (by omega) _
  omega

/-- There are at most `(146 + n * B) ^ (2 * n)` lines for a word of `n` characters, with a dictionary whose words have at most `B`
syllables in all their readings. (Missing: a polynomial bound, see `C95_false`.) -/
theorem C95_partial (hct : ct.Ok) (hw : fromBytes word = .ok w) (hd : Holds p.exceptDict look) (hg : GoodLook look) {B : Nat}
    (hB : WordsWithin look B) (h : p.parseWord ct word = .ok d) :
    ∃ f latt, PronunDAG.fracDAG d = .ok f ∧ FracDAG.lattice f = .ok latt ∧
      latt.length ≤ (146 + w.length * B) ^ (2 * w.length) := by
  obtain ⟨l, f, latt, h1, h2, h3, -, -, h4, h5, -⟩ := C93 hct hw hd hg h
  exact ⟨f, latt, h2, h3, (h4.trans h5).trans (C76_upper hct hw hd hg hB h h1)⟩

/-! ## A bound that does not depend on the dictionary -/

/-- The ways to `n` from a place at most `k` before it: from a position straight on to a later one, or by the node of a pre-syllable
(the word may be followed by a period). -/
private def routes (n : Nat) : Nat → List (List Int)
  | 0 => [[n]]
  | k + 1 => routes n k ++ ((routes n k).map (fun l => ((n : Int) - (k + 1)) :: l) ++
      ((routes n k).map (fun l => ((n : Int) - (k + 1)) :: spanPos ((n : Int) - (k + 1)) (l.headD 0) :: l) ++
        (routes n k).map fun l => ((n : Int) - (k + 1)) :: spanPos ((n : Int) - (k + 1)) (l.headD 0 - 1) :: l))

private theorem routes_length (n : Nat) : ∀ k, (routes n k).length = 4 ^ k
  | 0 => rfl
  | k + 1 => by
    unfold routes
    simp only [List.length_append, List.length_map]
    rw [routes_length n k, Nat.pow_succ]
    omega

private theorem routes_mono {n k : Nat} {l : List Int} (h : l ∈ routes n k) : ∀ j, l ∈ routes n (k + j)
  | 0 => h
  | j + 1 => List.mem_append_left _ (routes_mono h j)

private inductive Route (n : Int) : List Int → Prop
  | done : Route n [n]
  | on {b t : Int} {l : List Int} : 0 ≤ b → b < t → Route n (t :: l) → Route n (b :: t :: l)
  | via {b t : Int} {l : List Int} : 0 ≤ b → b < t → Route n (t :: l) → Route n (b :: spanPos b t :: t :: l)
  | dot {b t : Int} {l : List Int} : 0 ≤ b → b < t → Route n (t :: l) → Route n (b :: spanPos b (t - 1) :: t :: l)

private theorem route_mem {n : Nat} {l : List Int} (h : Route n l) :
    ∃ b l', l = b :: l' ∧ b ≤ n ∧ ∀ k : Nat, (n : Int) - b = k → l ∈ routes n k := by
  have up : ∀ {b t : Int} {l : List Int} {k : Nat}, 0 ≤ b → b < t → (n : Int) - b = k → t ≤ n →
      (∀ k : Nat, (n : Int) - t = k → t :: l ∈ routes n k) → ∃ k', k = k' + 1 ∧ b = (n : Int) - (k' + 1) ∧ t :: l ∈ routes n k' := by
    intro b t l k h0 hlt hk ht ih
    refine ⟨k - 1, by omega, by omega, ?_⟩
    have := routes_mono (ih ((n : Int) - t).toNat (by omega)) (k - 1 - ((n : Int) - t).toNat)
    rwa [show ((n : Int) - t).toNat + (k - 1 - ((n : Int) - t).toNat) = k - 1 by omega] at this
  induction h with
  | done =>
    refine ⟨n, [], rfl, Int.le_refl _, fun k hk => ?_⟩
    obtain rfl : k = 0 := by omega
    exact List.mem_singleton.mpr rfl
  | @on b t l h0 hlt _ ih =>
    obtain ⟨_, _, he, h1, h2⟩ := ih
    cases he
    refine ⟨_, _, rfl, by omega, fun k hk => ?_⟩
    obtain ⟨k, rfl, hb, hm⟩ := up h0 hlt hk h1 h2
    rw [hb]
    exact List.mem_append_right _ (List.mem_append_left _ (List.mem_map.mpr ⟨_, hm, rfl⟩))
  | @via b t l h0 hlt _ ih =>
    obtain ⟨_, _, he, h1, h2⟩ := ih
    cases he
    refine ⟨_, _, rfl, by omega, fun k hk => ?_⟩
    obtain ⟨k, rfl, hb, hm⟩ := up h0 hlt hk h1 h2
    rw [hb]
    exact List.mem_append_right _ (List.mem_append_right _ (List.mem_append_left _ (List.mem_map.mpr ⟨_, hm, rfl⟩)))
  | @dot b t l h0 hlt _ ih =>
    obtain ⟨_, _, he, h1, h2⟩ := ih
    cases he
    refine ⟨_, _, rfl, by omega, fun k hk => ?_⟩
    obtain ⟨k, rfl, hb, hm⟩ := up h0 hlt hk h1 h2
    rw [hb]
    exact List.mem_append_right _ (List.mem_append_right _ (List.mem_append_right _ (List.mem_map.mpr ⟨_, hm, rfl⟩)))

private theorem path_route (hct : ct.Ok) (hw : fromBytes word = .ok w) (hd : Holds p.exceptDict look) (hg : GoodLook look)
    (hs : SpanLook look) (h : p.parseWord ct word = .ok d) {n : Int} {q : List (Entry Syl)} (hq : MaxPath d n q) :
    (0 ≤ n → Route w.length (n :: q.map Entry.target)) ∧ (n < 0 → ∃ b t : Nat, ∃ r : Int, ∃ l, b < t ∧ t ≤ b + 100 ∧ n = spanPos b t ∧
      q.map Entry.target = r :: l ∧ (r = t ∨ r = t + 1) ∧ Route w.length (r :: l)) := by
  have pl : ∀ {x : Int}, 0 ≤ x → place x = 2 * x := fun {x} hx => by unfold place; rw [if_neg (by omega)]
  induction hq with
  | @last n e he hend =>
    obtain ⟨hm, rfl⟩ := DAG.mem_outEdges.mp he
    obtain ⟨-, -, h3, -, h5, -⟩ := C38_edges hct hw hd hg h e hm
    obtain ⟨-, h7⟩ := C44_result hct hw hd hs h e hm
    have ht : e.target = w.length := h5.resolve_right fun h => h hend
    rw [List.map_cons, List.map_nil, ht]
    rw [ht, pl (x := (w.length : Int)) (by omega)] at h3
    refine ⟨fun hn => .on hn (by rw [pl hn] at h3; omega) .done, fun hn => ?_⟩
    obtain ⟨b, t, h8, h9, h10, h11⟩ := h7 hn
    rw [ht] at h11
    exact ⟨b, t, _, [], h8, h9, h10, rfl, by omega, .done⟩
  | @step n e q he hq ih =>
    obtain ⟨hm, rfl⟩ := DAG.mem_outEdges.mp he
    obtain ⟨-, -, h3, -, -, -⟩ := C38_edges hct hw hd hg h e hm
    obtain ⟨h6, h7⟩ := C44_result hct hw hd hs h e hm
    rw [List.map_cons]
    refine ⟨fun hn => ?_, fun hn => ?_⟩
    · rw [pl hn] at h3
      rcases Int.lt_or_le e.target 0 with ht | ht
      · obtain ⟨b, t, h8, h9, h10, h11⟩ := h6 ht
        obtain ⟨b', t', r, l, k1, k2, k3, k4, k5, k6⟩ := ih.2 ht
        obtain ⟨rfl, rfl⟩ := C44_injective b t b' t' ⟨h8, h9⟩ ⟨k1, k2⟩ (by rw [← h11, ← k3])
        rw [k4, h11, h10]
        rcases k5 with rfl | rfl
        · exact .via (by omega) (by omega) k6
        · have := Route.dot (n := w.length) (b := b) (by omega) (by omega) k6
          rwa [Int.add_sub_cancel] at this
      · rw [pl ht] at h3
        exact .on hn (by omega) (ih.1 ht)
    · obtain ⟨b, t, h8, h9, h10, h11⟩ := h7 hn
      have ht : 0 ≤ e.target := by omega
      exact ⟨b, t, _, _, h8, h9, h10, rfl, by omega, ih.1 ht⟩

/-- There are at most `4 ^ n` lines for a word of `n` characters, whatever the dictionary, if its entries use the nodes of
pre-syllables as the program does (`C44_shipped`). -/
theorem C95_upper (hct : ct.Ok) (hw : fromBytes word = .ok w) (hd : Holds p.exceptDict look) (hg : GoodLook look)
    (hs : SpanLook look) (h : p.parseWord ct word = .ok d) {f : FracDAG} {latt : PronunLatt} (hf : PronunDAG.fracDAG d = .ok f)
    (hlatt : FracDAG.lattice f = .ok latt) : latt.length ≤ 4 ^ w.length := by
  obtain ⟨h1, h2⟩ := C93_lines hct hw hd hg h hf hlatt
  obtain ⟨l, f', latt', k1, k2, k3, -, k4, -⟩ := C93 hct hw hd hg h
  rw [hf] at k2
  cases k2
  rw [hlatt] at k3
  cases k3
  obtain ⟨hb, ha⟩ := C38_acyclic hct hw hd hg h
  obtain ⟨ps, j1, -, j3⟩ := C15_listing d hb ha
  rw [k1] at j1
  cases j1
  let rep : PronunChain → List Int := fun c => 0 :: ((Spec.expand c).headD []).map Syl.endPos
  have hrep : ∀ c ∈ latt, (Spec.expand c).headD [] ∈ Spec.expand c := by
    intro c hc
    cases he : Spec.expand c with
    | nil => exact absurd he (h1 c hc)
    | cons t l => exact List.mem_cons_self ..
  have hn : (latt.map rep).Nodup := by
    unfold List.Nodup
    rw [List.pairwise_map]
    refine h2.imp_of_mem fun {a b} ha hb hab he => hab _ (hrep a ha) _ (hrep b hb) (List.cons.inj he).2
  have hsub : ∀ x ∈ latt.map rep, x ∈ routes w.length w.length := by
    intro x hx
    obtain ⟨c, hc, rfl⟩ := List.mem_map.mp hx
    obtain ⟨q, hq, hqe⟩ := List.mem_map.mp (k4 _ (List.mem_flatMap.mpr ⟨c, hc, hrep c hc⟩))
    have hq := (j3 q).mp hq
    have he : ((Spec.expand c).headD []).map Syl.endPos = q.map Entry.target := by
      rw [← hqe, List.map_map]
      have mem : ∀ {n : Int} {q : List (Entry Syl)}, MaxPath d n q → ∀ e ∈ q, e ∈ d.mFrom := by
        intro n q h
        induction h with
        | last h _ =>
          intro e he
          cases List.mem_singleton.mp he
          exact (DAG.mem_outEdges.mp h).1
        | step h _ ih =>
          intro e he
          rcases List.mem_cons.mp he with rfl | he
          · exact (DAG.mem_outEdges.mp h).1
          · exact ih e he
      exact List.map_congr_left fun e he => (C38_edges hct hw hd hg h e (mem hq e he)).1
    show 0 :: ((Spec.expand c).headD []).map Syl.endPos ∈ _
    rw [he]
    obtain ⟨b, l', hl, -, hr⟩ := route_mem ((path_route hct hw hd hg hs h hq).1 (Int.le_refl _))
    cases hl
    exact hr _ (by omega)
  have := (hn.subperm hsub).length_le
  rwa [List.length_map, routes_length] at this

/-- The hypotheses are met by ฤกอก ฤกอก, whose grouped form has at least nine lines. -/
example : WordsWithin (fun _ => none) 0 ∧ ∃ w d f latt, fromBytes b!"ฤกอก ฤกอก" = .ok w ∧ w.length = 9 ∧
    (Parser.new (fun _ => []) false).parseWord thaiCType b!"ฤกอก ฤกอก" = .ok d ∧ PronunDAG.fracDAG d = .ok f ∧
      FracDAG.lattice f = .ok latt ∧ 9 ≤ latt.length := by
  refine ⟨fun _ _ _ h => (nomatch h), ?_⟩
  obtain ⟨h1, h2, d, f, latt, h3, h4, h5, h6⟩ := C95_exp 1
  exact ⟨_, d, f, latt, h2, h1, h3, h4, h5, h6⟩

end Thpronun
