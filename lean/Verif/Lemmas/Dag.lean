import Verif.Spec.Dag
import Verif.Lemmas.SylOrder
import Verif.Model.PronDag
import Mathlib.Data.List.Perm.Basic
import Mathlib.Data.List.Sort

/-! # The DAG: helper lemmas -/

namespace Thpronun
namespace DAG
variable {V : Type u}

def Entry.swap (e : Entry V) : Entry V := ⟨e.target, e.key, e.val⟩

@[simp] theorem swap_swap (e : Entry V) : Entry.swap (Entry.swap e) = e := rfl

theorem mmEmplace_perm (l : List (Entry V)) (e : Entry V) : (mmEmplace l e).Perm (e :: l) := by
  induction l with
  | nil => exact .refl _
  | cons x xs ih =>
    unfold mmEmplace
    split
    · exact (ih.cons x).trans (.swap e x xs)
    · exact .refl _

theorem mem_mmEmplace {l : List (Entry V)} {e x : Entry V} :
    x ∈ mmEmplace l e ↔ x = e ∨ x ∈ l := by
  rw [(mmEmplace_perm l e).mem_iff, List.mem_cons]

def Sorted (l : List (Entry V)) : Prop := l.Pairwise fun a b => a.key ≤ b.key

theorem Sorted.emplace {l : List (Entry V)} (h : Sorted l) (e : Entry V) :
    Sorted (mmEmplace l e) := by
  induction l with
  | nil => simp [mmEmplace, Sorted]
  | cons x xs ih =>
    have hx := List.pairwise_cons.mp h
    unfold mmEmplace
    split
    · rename_i hle
      refine List.pairwise_cons.mpr ⟨fun b hb => ?_, ih hx.2⟩
      rcases mem_mmEmplace.mp hb with rfl | hb
      · exact hle
      · exact hx.1 b hb
    · refine List.pairwise_cons.mpr ⟨fun b hb => ?_, h⟩
      rcases List.mem_cons.mp hb with rfl | hb
      · omega
      · have := hx.1 b hb; omega

theorem mem_equalRange {l : List (Entry V)} {k : Int} {x : Entry V} :
    x ∈ equalRange l k ↔ x ∈ l ∧ x.key = k := by simp [equalRange]

theorem mem_outEdges {d : DAG V} {n : Int} {x : Entry V} :
    x ∈ d.outEdges n ↔ x ∈ d.mFrom ∧ x.key = n := mem_equalRange

theorem mem_inEdges {d : DAG V} {n : Int} {x : Entry V} :
    x ∈ d.inEdges n ↔ x ∈ d.mTo ∧ x.key = n := mem_equalRange

variable [CppEq V]

/-- Two elements that stand for the same edge. -/
def Same (a b : Entry V) : Prop := a.key = b.key ∧ a.target = b.target ∧ ceq a.val b.val = true

/-- The representation invariant. -/
structure Coh (d : DAG V) : Prop where
  perm : (d.mTo.map Entry.swap).Perm d.mFrom
  sortedFrom : Sorted d.mFrom
  sortedTo : Sorted d.mTo
  distinct : d.mFrom.Pairwise fun a b => ¬ Same a b

theorem isMatch_iff {t : Int} {v : V} {x : Entry V} :
    isMatch t v x = true ↔ x.target = t ∧ ceq x.val v = true := by
  simp [isMatch]

theorem isEdgeExist_iff {d : DAG V} {u v : Int} {x : V} :
    d.isEdgeExist u v x = true ↔ ∃ e ∈ d.mFrom, e.key = u ∧ e.target = v ∧ ceq e.val x = true := by
  unfold isEdgeExist
  rw [List.any_eq_true]
  constructor
  · rintro ⟨e, he, hm⟩
    exact ⟨e, (mem_equalRange.mp he).1, (mem_equalRange.mp he).2, isMatch_iff.mp hm⟩
  · rintro ⟨e, he, hk, hm⟩
    exact ⟨e, mem_equalRange.mpr ⟨he, hk⟩, isMatch_iff.mpr hm⟩

theorem Coh.mem_swap {d : DAG V} (h : Coh d) {e : Entry V} :
    e ∈ d.mTo ↔ Entry.swap e ∈ d.mFrom := by
  rw [← h.perm.mem_iff, List.mem_map]
  constructor
  · exact fun he => ⟨e, he, rfl⟩
  · rintro ⟨a, ha, hs⟩
    have : a = e := by rw [← swap_swap a, hs, swap_swap]
    exact this ▸ ha

theorem Coh.empty : Coh (DAG.empty : DAG V) :=
  ⟨.refl _, List.Pairwise.nil, List.Pairwise.nil, List.Pairwise.nil⟩

variable [LawfulCppEq V]

omit [CppEq V] [LawfulCppEq V] in
theorem Same.symm [CppEq V] [LawfulCppEq V] {a b : Entry V} (h : Same a b) : Same b a :=
  ⟨h.1.symm, h.2.1.symm, LawfulCppEq.symm h.2.2⟩

theorem Same.trans {a b c : Entry V} (h : Same a b) (h' : Same b c) : Same a c :=
  ⟨h.1.trans h'.1, h.2.1.trans h'.2.1, LawfulCppEq.trans h.2.2 h'.2.2⟩

theorem Same.refl (a : Entry V) : Same a a := ⟨rfl, rfl, LawfulCppEq.refl _⟩

theorem Coh.addEdge {d : DAG V} (h : Coh d) (u v : Int) (x : V) : Coh (d.addEdge u v x).1 := by
  unfold DAG.addEdge
  split
  · exact h
  · rename_i hne
    refine ⟨?_, h.sortedFrom.emplace _, h.sortedTo.emplace _, ?_⟩
    · refine ((mmEmplace_perm _ _).map _).trans ?_
      exact (List.Perm.cons _ h.perm).trans (mmEmplace_perm _ _).symm
    · refine ((mmEmplace_perm _ _).pairwise_iff (fun hab hba => hab hba.symm)).mpr ?_
      refine List.pairwise_cons.mpr ⟨fun b hb hs => hne ?_, h.distinct⟩
      exact isEdgeExist_iff.mpr ⟨b, hb, hs.1.symm, hs.2.1.symm, LawfulCppEq.symm hs.2.2⟩

omit [CppEq V] [LawfulCppEq V] in
theorem Sorted.sublist {l l' : List (Entry V)} (h : Sorted l) (hs : l'.Sublist l) : Sorted l' :=
  List.Pairwise.sublist hs h

omit [LawfulCppEq V] in
theorem eraseFirst_def (l : List (Entry V)) (k t : Int) (v : V) :
    eraseFirst l k t v = l.eraseP (fun x => decide (x.key = k) && isMatch t v x) := rfl

/-- In a list without duplicates, erasing the first match removes exactly the matches. -/
theorem eraseFirst_eq_filter {l : List (Entry V)} (hd : l.Pairwise fun a b => ¬ Same a b)
    (k t : Int) (v : V) :
    eraseFirst l k t v = l.filter fun x => !(decide (x.key = k) && isMatch t v x) := by
  rw [eraseFirst_def]
  induction l with
  | nil => rfl
  | cons a l ih =>
    have hp := List.pairwise_cons.mp hd
    by_cases hm : (decide (a.key = k) && isMatch t v a) = true
    · rw [List.eraseP_cons_of_pos (p := fun x => decide (x.key = k) && isMatch t v x) hm,
        List.filter_cons_of_neg (by simp only [hm]; decide)]
      refine (List.filter_eq_self.mpr fun b hb => ?_).symm
      rw [Bool.not_eq_true', ← Bool.not_eq_true]
      intro hm'
      rw [Bool.and_eq_true, decide_eq_true_eq, isMatch_iff] at hm hm'
      exact hp.1 b hb ⟨hm.1.trans hm'.1.symm, hm.2.1.trans hm'.2.1.symm,
        LawfulCppEq.trans hm.2.2 (LawfulCppEq.symm hm'.2.2)⟩
    · rw [List.eraseP_cons_of_neg (p := fun x => decide (x.key = k) && isMatch t v x) hm,
        List.filter_cons_of_pos (by simp only [hm]; decide), ih hp.2]

theorem Coh.distinctTo {d : DAG V} (h : Coh d) : d.mTo.Pairwise fun a b => ¬ Same a b := by
  have := (h.perm.pairwise_iff (fun hab hba => hab (Same.symm hba))).mpr h.distinct
  rw [List.pairwise_map] at this
  exact this.imp fun hab hs => hab ⟨hs.2.1, hs.1, hs.2.2⟩

omit [CppEq V] [LawfulCppEq V] in
/-- Filtering both views by the same edge predicate keeps them coherent. -/
theorem Coh.filter [CppEq V] {d : DAG V} (h : Coh d) (p : Entry V → Bool) :
    Coh (⟨d.mFrom.filter p, d.mTo.filter fun e => p (Entry.swap e)⟩ : DAG V) := by
  refine ⟨?_, h.sortedFrom.sublist List.filter_sublist, h.sortedTo.sublist List.filter_sublist,
    h.distinct.sublist List.filter_sublist⟩
  have := h.perm.filter p
  rw [List.filter_map] at this
  exact this

theorem removeEdge_eq {d : DAG V} (h : Coh d) (u v : Int) (x : V) :
    (d.removeEdge u v x).1 =
      ⟨d.mFrom.filter fun e => !(decide (e.key = u) && isMatch v x e),
       d.mTo.filter fun e => !(decide ((Entry.swap e).key = u) && isMatch v x (Entry.swap e))⟩ := by
  unfold removeEdge
  simp only [eraseFirst_eq_filter h.distinct, eraseFirst_eq_filter h.distinctTo]
  congr 1
  apply List.filter_congr
  intro e _
  simp only [isMatch, Entry.swap]
  rw [← Bool.and_assoc, ← Bool.and_assoc, Bool.and_comm (decide (e.key = v))]
  rfl

theorem Coh.removeEdge {d : DAG V} (h : Coh d) (u v : Int) (x : V) :
    Coh (d.removeEdge u v x).1 := by
  rw [removeEdge_eq h]; exact h.filter _

omit [CppEq V] [LawfulCppEq V] in
theorem removeDirectEdges_eq (d : DAG V) (u v : Int) :
    (d.removeDirectEdges u v).1 =
      ⟨d.mFrom.filter fun e => !(decide (e.key = u) && decide (e.target = v)),
       d.mTo.filter fun e => !(decide ((Entry.swap e).key = u) && decide ((Entry.swap e).target = v))⟩ := by
  unfold removeDirectEdges
  simp only [eraseAll]
  congr 1
  apply List.filter_congr
  intro e _
  simp only [Entry.swap, Bool.and_comm]
  rfl

omit [LawfulCppEq V] in
theorem Coh.removeDirectEdges {d : DAG V} (h : Coh d) (u v : Int) :
    Coh (d.removeDirectEdges u v).1 := by
  rw [removeDirectEdges_eq]; exact h.filter _

theorem Coh.foldl_add {d : DAG V} (h : Coh d) (l : List (Entry V)) :
    Coh (l.foldl (fun acc x => (DAG.addEdge acc x.key x.target x.val).1) d) := by
  induction l generalizing d with
  | nil => exact h
  | cons a l ih => exact ih (h.addEdge _ _ _)

theorem Coh.unionDAG {d : DAG V} (h : Coh d) (e : DAG V) : Coh (d.unionDAG e) := h.foldl_add _

theorem Coh.of_built {d : DAG V} (h : Spec.Built d) : Coh d := by
  induction h with
  | empty => exact Coh.empty
  | addEdge u v x _ ih => exact ih.addEdge u v x
  | removeEdge u v x _ ih => exact ih.removeEdge u v x
  | removeDirectEdges u v _ ih => exact ih.removeDirectEdges u v
  | unionDAG _ _ ih _ => exact ih.unionDAG _

/-! ## The set view -/

omit [LawfulCppEq V] in
theorem edge_iff {d : DAG V} {u v : Int} {x : V} :
    Spec.Edge d u v x ↔ ∃ e ∈ d.mFrom, e.key = u ∧ e.target = v ∧ ceq e.val x = true := by
  simp only [Spec.Edge, mem_outEdges]
  constructor
  · rintro ⟨e, ⟨h1, h2⟩, h3⟩; exact ⟨e, h1, h2, h3⟩
  · rintro ⟨e, h1, h2, h3⟩; exact ⟨e, ⟨h1, h2⟩, h3⟩

omit [LawfulCppEq V] in
theorem edgeIn_iff {d : DAG V} (h : Coh d) {u v : Int} {x : V} :
    Spec.EdgeIn d u v x ↔ Spec.Edge d u v x := by
  rw [edge_iff]
  simp only [Spec.EdgeIn, mem_inEdges]
  constructor
  · rintro ⟨e, ⟨h1, h2⟩, h3, h4⟩; exact ⟨_, h.mem_swap.mp h1, h3, h2, h4⟩
  · rintro ⟨e, h1, h2, h3, h4⟩
    exact ⟨Entry.swap e, ⟨h.mem_swap.mpr h1, h3⟩, h2, h4⟩

omit [LawfulCppEq V] in
theorem isEdgeExist_edge {d : DAG V} {u v : Int} {x : V} :
    d.isEdgeExist u v x = true ↔ Spec.Edge d u v x := by
  rw [isEdgeExist_iff, edge_iff]

theorem edge_addEdge {d : DAG V} {u v u' v' : Int} {x y : V} :
    Spec.Edge (d.addEdge u v x).1 u' v' y ↔
      Spec.Edge d u' v' y ∨ (u' = u ∧ v' = v ∧ ceq x y = true) := by
  unfold DAG.addEdge
  split
  · rename_i h
    constructor
    · exact .inl
    · rintro (h' | ⟨rfl, rfl, h'⟩)
      · exact h'
      · obtain ⟨e, h1, h2, h3, h4⟩ := isEdgeExist_iff.mp h
        exact edge_iff.mpr ⟨e, h1, h2, h3, LawfulCppEq.trans h4 h'⟩
  · simp only [edge_iff, mem_mmEmplace]
    constructor
    · rintro ⟨e, rfl | h1, h2, h3, h4⟩
      · exact .inr ⟨h2.symm, h3.symm, h4⟩
      · exact .inl ⟨e, h1, h2, h3, h4⟩
    · rintro (⟨e, h1, h2⟩ | ⟨rfl, rfl, h'⟩)
      · exact ⟨e, .inr h1, h2⟩
      · exact ⟨_, .inl rfl, rfl, rfl, h'⟩

theorem edge_removeEdge {d : DAG V} (hd : Coh d) {u v u' v' : Int} {x y : V} :
    Spec.Edge (d.removeEdge u v x).1 u' v' y ↔
      Spec.Edge d u' v' y ∧ ¬ (u' = u ∧ v' = v ∧ ceq x y = true) := by
  rw [removeEdge_eq hd]
  simp only [edge_iff, List.mem_filter, Bool.not_eq_true', ← Bool.not_eq_true, Bool.and_eq_true,
    decide_eq_true_eq, isMatch_iff]
  constructor
  · rintro ⟨e, ⟨h1, hn⟩, rfl, rfl, h4⟩
    exact ⟨⟨e, h1, rfl, rfl, h4⟩, fun h => hn ⟨h.1, h.2.1,
      LawfulCppEq.trans h4 (LawfulCppEq.symm h.2.2)⟩⟩
  · rintro ⟨⟨e, h1, rfl, rfl, h4⟩, hn⟩
    exact ⟨e, ⟨h1, fun h => hn ⟨h.1, h.2.1, LawfulCppEq.trans (LawfulCppEq.symm h.2.2) h4⟩⟩,
      rfl, rfl, h4⟩

omit [LawfulCppEq V] in
theorem edge_removeDirectEdges {d : DAG V} {u v u' v' : Int} {y : V} :
    Spec.Edge (d.removeDirectEdges u v).1 u' v' y ↔
      Spec.Edge d u' v' y ∧ ¬ (u' = u ∧ v' = v) := by
  rw [removeDirectEdges_eq]
  simp only [edge_iff, List.mem_filter, Bool.not_eq_true', ← Bool.not_eq_true, Bool.and_eq_true,
    decide_eq_true_eq]
  constructor
  · rintro ⟨e, ⟨h1, hn⟩, rfl, rfl, h4⟩
    exact ⟨⟨e, h1, rfl, rfl, h4⟩, hn⟩
  · rintro ⟨⟨e, h1, rfl, rfl, h4⟩, hn⟩
    exact ⟨e, ⟨h1, hn⟩, rfl, rfl, h4⟩

theorem edge_foldl_add {l : List (Entry V)} {d : DAG V} {u v : Int} {y : V} :
    Spec.Edge (l.foldl (fun acc x => (DAG.addEdge acc x.key x.target x.val).1) d) u v y ↔
      Spec.Edge d u v y ∨ ∃ e ∈ l, e.key = u ∧ e.target = v ∧ ceq e.val y = true := by
  induction l generalizing d with
  | nil => simp
  | cons a l ih =>
    simp only [List.foldl_cons, ih, edge_addEdge, List.mem_cons, exists_eq_or_imp]
    constructor
    · rintro ((h | ⟨rfl, rfl, h⟩) | h)
      · exact .inl h
      · exact .inr (.inl ⟨rfl, rfl, h⟩)
      · exact .inr (.inr h)
    · rintro (h | (⟨rfl, rfl, h⟩ | h))
      · exact .inl (.inl h)
      · exact .inl (.inr ⟨rfl, rfl, h⟩)
      · exact .inr h

theorem edge_unionDAG {d e : DAG V} {u v : Int} {y : V} :
    Spec.Edge (d.unionDAG e) u v y ↔ Spec.Edge d u v y ∨ Spec.Edge e u v y := by
  unfold unionDAG
  rw [edge_foldl_add, ← edge_iff]

/-- Duplicate-free listings of the same set have the same length. -/
theorem lists_length_le {l l' : List (Int × V)} {P : Int → V → Prop}
    (h : Spec.Lists l P) (h' : Spec.Lists l' P) : l.length ≤ l'.length := by
  obtain ⟨hm, hd⟩ := h
  have hm' := h'.mem
  have hsub : ∀ e ∈ l, ∃ e' ∈ l', e'.1 = e.1 ∧ ceq e'.2 e.2 = true := fun e he =>
    (hm' e.1 e.2).mp ((hm e.1 e.2).mpr ⟨e, he, rfl, LawfulCppEq.refl _⟩)
  clear hm hm' h'
  induction l generalizing l' with
  | nil => simp
  | cons a l ih =>
    have hp := List.pairwise_cons.mp hd
    obtain ⟨e', he', h1, h2⟩ := hsub a (by simp)
    obtain ⟨s, t, rfl⟩ := List.append_of_mem he'
    have : l.length ≤ (s ++ t).length := by
      refine ih hp.2 fun e he => ?_
      obtain ⟨f, hf, g1, g2⟩ := hsub e (by simp [he])
      rw [List.mem_append, List.mem_cons] at hf
      rcases hf with hf | rfl | hf
      · exact ⟨f, by simp [hf], g1, g2⟩
      · exact absurd ⟨h1.symm.trans g1, LawfulCppEq.trans (LawfulCppEq.symm h2) g2⟩ (hp.1 e he)
      · exact ⟨f, by simp [hf], g1, g2⟩
    simp only [List.length_append, List.length_cons] at this ⊢
    omega

end DAG

instance : LawfulCppEq Syl := ⟨Syl.eq_refl, Syl.eq_symm, Syl.eq_trans⟩

theorem SylString.eq_refl (a : SylString) : SylString.eq a a = true :=
  (SylString.eq_iff a a).mpr (List.forall₂_same.mpr fun x _ => Syl.eq_refl x)

theorem SylString.eq_symm {a b : SylString} (h : SylString.eq a b = true) :
    SylString.eq b a = true := by
  rw [SylString.eq_iff] at *
  exact (List.Forall₂.imp (fun _ _ => Syl.eq_symm) h).flip

theorem SylString.eq_trans {a b c : SylString} (h : SylString.eq a b = true)
    (h' : SylString.eq b c = true) : SylString.eq a c = true := by
  rw [SylString.eq_iff] at *
  induction h generalizing c with
  | nil => cases h'; exact .nil
  | cons h _ ih => cases h' with | cons h1 h2 => exact .cons (Syl.eq_trans h h1) (ih h2)

instance : LawfulCppEq SylString := ⟨SylString.eq_refl, SylString.eq_symm, SylString.eq_trans⟩

theorem PronunFrac.altsEq_iff (a b : List SylString) :
    PronunFrac.altsEq a b = true ↔ List.Forall₂ (fun x y => SylString.eq x y = true) a b := by
  induction a generalizing b with
  | nil => cases b <;> simp [PronunFrac.altsEq]
  | cons x xs ih =>
    cases b with
    | nil => simp [PronunFrac.altsEq]
    | cons y ys => simp [PronunFrac.altsEq, SylString.ne, ih]

instance : LawfulCppEq PronunFrac where
  refl a := (PronunFrac.altsEq_iff _ _).mpr (List.forall₂_same.mpr fun x _ => SylString.eq_refl x)
  symm h := (PronunFrac.altsEq_iff _ _).mpr
    (List.Forall₂.imp (fun _ _ => SylString.eq_symm) ((PronunFrac.altsEq_iff _ _).mp h)).flip
  trans {a b c} h h' := by
    have h1 := (PronunFrac.altsEq_iff _ _).mp h
    have h2 := (PronunFrac.altsEq_iff _ _).mp h'
    refine (PronunFrac.altsEq_iff _ _).mpr ?_
    revert h1 h2
    generalize a.alts = x, b.alts = y, c.alts = z
    intro h1 h2
    induction h1 generalizing z with
    | nil => cases h2; exact .nil
    | cons h _ ih => cases h2 with | cons h1 h2 => exact .cons (SylString.eq_trans h h1) (ih _ h2)

end Thpronun
