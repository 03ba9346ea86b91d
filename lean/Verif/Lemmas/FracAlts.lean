import Verif.Lemmas.Frac
import Verif.Lemmas.Lattice

/-! # What the alternatives of a grouped DAG are made of -/

namespace Thpronun
open Spec

theorem Spec.MaxPath.mem {V : Type u} {d : DAG V} {n : Int} {p : List (Entry V)} (h : MaxPath d n p)
    {e : Entry V} (he : e ∈ p) : e ∈ d.mFrom := by
  induction h with
  | last h _ =>
    rw [List.mem_singleton] at he
    exact he ▸ (DAG.mem_outEdges.mp h).1
  | step h _ ih =>
    rcases List.mem_cons.mp he with rfl | he
    · exact (DAG.mem_outEdges.mp h).1
    · exact ih he

/-- Every alternative on an edge satisfies `P`. -/
def AllAlts (P : SylString → Prop) (d : FracDAG) : Prop :=
  (∀ e ∈ d.mFrom, ∀ a ∈ e.val.alts, P a) ∧ ∀ e ∈ d.mTo, ∀ a ∈ e.val.alts, P a

variable {P : SylString → Prop}

theorem AllAlts.addEdge {d : FracDAG} (h : AllAlts P d) (u v : Int) (f : PronunFrac)
    (hf : ∀ a ∈ f.alts, P a) : AllAlts P (d.addEdge u v f).1 := by
  unfold DAG.addEdge
  split
  · exact h
  · constructor
    · intro e he
      rcases DAG.mem_mmEmplace.mp he with rfl | he
      · exact hf
      · exact h.1 e he
    · intro e he
      rcases DAG.mem_mmEmplace.mp he with rfl | he
      · exact hf
      · exact h.2 e he

theorem AllAlts.sub {d d' : FracDAG} (h : AllAlts P d) (h1 : ∀ e ∈ d'.mFrom, e ∈ d.mFrom)
    (h2 : ∀ e ∈ d'.mTo, e ∈ d.mTo) : AllAlts P d' :=
  ⟨fun e he => h.1 e (h1 e he), fun e he => h.2 e (h2 e he)⟩

theorem AllAlts.removeEdge {d : FracDAG} (h : AllAlts P d) (u v : Int) (f : PronunFrac) :
    AllAlts P (d.removeEdge u v f).1 :=
  h.sub (fun _ he => List.mem_of_mem_eraseP he) fun _ he => List.mem_of_mem_eraseP he

theorem AllAlts.removeDirectEdges {d : FracDAG} (h : AllAlts P d) (u v : Int) :
    AllAlts P (d.removeDirectEdges u v).1 :=
  h.sub (fun _ he => List.mem_of_mem_filter he) fun _ he => List.mem_of_mem_filter he

theorem toFrac_alts (d : PronunDAG) (h : ∀ e ∈ d.mFrom, P [e.val]) : AllAlts P d.toFrac := by
  unfold PronunDAG.toFrac
  have : ∀ (l : List (Entry Syl)) (f : FracDAG), AllAlts P f → (∀ e ∈ l, P [e.val]) →
      AllAlts P (l.foldl
        (fun f x => (f.addEdge x.key x.target (PronunFrac.single x.target [x.val])).1) f) := by
    intro l
    induction l with
    | nil => exact fun f hf _ => hf
    | cons x l ih =>
      intro f hf hl
      rw [List.foldl_cons]
      refine ih _ (hf.addEdge _ _ _ ?_) fun e he => hl e (List.mem_cons_of_mem _ he)
      intro a ha
      simp only [PronunFrac.single, PronunFrac.addStr, PronunFrac.insertAlt,
        List.mem_singleton] at ha
      exact ha ▸ hl x (by simp)
  exact this _ _ ⟨by simp [DAG.empty], by simp [DAG.empty]⟩ h

variable (happ : ∀ a b, P a → P b → P (a ++ b))
include happ in
theorem mergeSingles_alts (n : Nat) (d : FracDAG) (h : AllAlts P d) :
    (FracDAG.mergeSinglesLoop n d).SatP (AllAlts P) := by
  induction n generalizing d with
  | zero => trivial
  | succ n ih =>
    rw [FracDAG.mergeSinglesLoop]
    cases hf : d.mFrom.find? (FracDAG.isPass d) with
    | none => exact h
    | some it =>
      have hit := List.mem_of_find?_eq_some hf
      refine Res.SatP.bind (P := AllAlts P) ?_ fun d' h' => ih d' h'
      unfold FracDAG.mergeAt
      split
      · trivial
      · rename_i inIt l hin
        have hin' : inIt ∈ d.mTo :=
          List.mem_of_mem_filter (show inIt ∈ d.inEdges it.key by rw [hin]; simp)
        dsimp only
        split
        · rename_i a _ b _ ha hb
          split
          · trivial
          · rw [Res.satP_ok]
            refine ((h.removeEdge _ _ _).removeEdge _ _ _).addEdge _ _ _ ?_
            intro x hx
            simp only [PronunFrac.single, PronunFrac.addStr, PronunFrac.insertAlt,
              List.mem_singleton] at hx
            subst hx
            exact happ _ _ (h.2 inIt hin' a (by rw [ha]; simp)) (h.1 it hit b (by rw [hb]; simp))
        · trivial

theorem mergeParallels_alts (n k : Nat) (d : FracDAG) (h : AllAlts P d) :
    (FracDAG.mergeParallelsLoop n k d).SatP (AllAlts P) := by
  induction n generalizing d k with
  | zero => trivial
  | succ n ih =>
    rw [FracDAG.mergeParallelsLoop]
    cases hf : (d.mFrom.drop k).find? (FracDAG.isParallel d) with
    | none => exact h
    | some it =>
      refine ih _ _ ?_
      unfold FracDAG.mergeParAt
      refine (h.removeDirectEdges _ _).addEdge _ _ _ ?_
      have hl : ∀ x ∈ FracDAG.parallels d it.key it.target, ∀ a ∈ x.val.alts, P a := fun x hx =>
        h.1 x (FracDAG.mem_parallels.mp hx).1
      revert hl
      generalize FracDAG.parallels d it.key it.target = l
      have : ∀ f : PronunFrac, (∀ a ∈ f.alts, P a) → (∀ x ∈ l, ∀ a ∈ x.val.alts, P a) →
          ∀ a ∈ (l.foldl (fun f x => f.addFrac x.val) f).alts, P a := by
        induction l with
        | nil => exact fun f hf _ => hf
        | cons x l ih =>
          intro f hf hl
          rw [List.foldl_cons]
          refine ih _ ?_ fun y hy => hl y (List.mem_cons_of_mem _ hy)
          intro a ha
          rw [PronunFrac.addFrac_alts] at ha
          rcases PronunFrac.mem_foldl ha with h | h
          · exact hf a h
          · exact hl x (by simp) a h
      exact this _ (by simp [PronunFrac.empty])

include happ in
theorem fracDAG_alts (d : PronunDAG) (h : ∀ e ∈ d.mFrom, P [e.val]) :
    (PronunDAG.fracDAG d).SatP (AllAlts P) :=
  Res.SatP.bind (mergeSingles_alts happ _ _ (toFrac_alts d h)) fun d' h' =>
    mergeParallels_alts _ _ d' h'

/-- Every alternative in the lattice satisfies `P`. -/
def LattAlts (P : SylString → Prop) (l : PronunLatt) : Prop :=
  ∀ c ∈ l, ∀ f ∈ c, ∀ a ∈ f.alts, P a

include happ in
theorem mergeSinglesAux_alts (c : PronunChain) (h : ∀ f ∈ c, ∀ a ∈ f.alts, P a) :
    (∀ f ∈ mergeSinglesAux none c, ∀ a ∈ f.alts, P a) ∧
    ∀ g : PronunFrac, (∀ a ∈ g.alts, P a) → ∀ f ∈ mergeSinglesAux (some g) c, ∀ a ∈ f.alts, P a := by
  induction c with
  | nil => simp [mergeSinglesAux]
  | cons x c ih =>
    obtain ⟨i1, i2⟩ := ih fun f hf => h f (List.mem_cons_of_mem _ hf)
    have hx := h x (by simp)
    constructor
    · unfold mergeSinglesAux
      split
      · exact i2 x hx
      · intro f hf
        rcases List.mem_cons.mp hf with rfl | hf
        · exact hx
        · exact i1 f hf
    · intro g hg
      unfold mergeSinglesAux
      split
      · refine i2 _ ?_
        unfold PronunFrac.appendFirst
        split
        · rename_i a as b _ ha hb
          intro y hy
          rcases List.mem_cons.mp hy with rfl | hy
          · exact happ _ _ (hg a (by rw [ha]; simp)) (hx b (by rw [hb]; simp))
          · exact hg y (by rw [ha]; simp [hy])
        · exact hg
      · intro f hf
        rcases List.mem_cons.mp hf with rfl | hf
        · exact hg
        rcases List.mem_cons.mp hf with rfl | hf
        · exact hx
        · exact i1 f hf

include happ in
theorem lattice_alts (f : FracDAG) (h : AllAlts P f) : (FracDAG.lattice f).SatP (LattAlts P) := by
  unfold FracDAG.lattice
  rw [FracDAG.nodeLattice_walk]
  rw [Res.satP_iff]
  intro l hl
  obtain ⟨l', h1, h2⟩ := Res.bind_eq_ok.mp hl
  obtain ⟨ps, h3, h4⟩ := Res.bind_eq_ok.mp h1
  obtain ⟨w, _, _⟩ := DAG.walk_spec f _ 0 ps h3
  cases h4
  cases h2
  intro c hc
  simp only [PronunLatt.mergeSingles, List.mem_map] at hc
  obtain ⟨_, ⟨p, hp, rfl⟩, rfl⟩ := hc
  refine (mergeSinglesAux_alts happ _ ?_).1
  intro x hx
  obtain ⟨e, he, rfl⟩ := List.mem_map.mp hx
  exact h.1 e (((w p).mp hp).mem he)

end Thpronun
