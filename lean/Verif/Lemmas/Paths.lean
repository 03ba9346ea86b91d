import Verif.Lemmas.Dag
import Mathlib.Data.List.Chain

/-! # Paths of a DAG and the recursive listings: helper lemmas -/

namespace Thpronun
open Spec

theorem concatRes_ok {α β} {f : α → Res (List β)} {g : α → List β} {l : List α}
    (h : ∀ a ∈ l, f a = .ok (g a)) : concatRes f l = .ok (l.flatMap g) := by
  induction l with
  | nil => rfl
  | cons a l ih =>
    simp [concatRes, h a (by simp), ih (fun b hb => h b (by simp [hb]))]

theorem concatRes_inv {α β} {f : α → Res (List β)} {l : List α} {r : List β}
    (h : concatRes f l = .ok r) : ∀ a ∈ l, ∃ b, f a = .ok b := by
  induction l generalizing r with
  | nil => simp
  | cons a l ih =>
    obtain ⟨b, hb, h⟩ := Res.bind_eq_ok.mp h
    obtain ⟨bs, hbs, _⟩ := Res.bind_eq_ok.mp h
    intro x hx
    rcases List.mem_cons.mp hx with rfl | hx
    · exact ⟨b, hb⟩
    · exact ih hbs x hx

theorem concatRes_map {α β γ} (f : α → Res (List β)) (g : β → γ) (l : List α) :
    (concatRes f l >>= fun r => Res.ok (r.map g)) =
      concatRes (fun a => f a >>= fun r => Res.ok (r.map g)) l := by
  induction l with
  | nil => rfl
  | cons a l ih =>
    simp only [concatRes, ← ih, Res.bind_assoc']
    cases f a with
    | ok b => cases concatRes f l <;> simp
    | _ => simp

namespace DAG
variable {V : Type u}

/-- All maximal paths from a node, enumerated like the code does (fuelled). -/
def walk (d : DAG V) : Nat → Int → Res (List (List (Entry V)))
  | 0, _ => .diverge
  | fuel + 1, root =>
    concatRes (fun (x : Entry V) => do
      let child ← walk d fuel x.target
      if child.length = 0 then pure [[x]] else pure (child.map fun s => x :: s)) (d.outEdges root)

/-- Paths (not necessarily maximal, possibly empty). -/
inductive IsPath (d : DAG V) : Int → List (Entry V) → Prop
  | nil {n} : IsPath d n []
  | cons {n e p} : e ∈ d.outEdges n → IsPath d e.target p → IsPath d n (e :: p)

theorem _root_.Thpronun.Spec.MaxPath.isPath {d : DAG V} {n p} (h : MaxPath d n p) : IsPath d n p := by
  induction h with
  | last h _ => exact .cons h .nil
  | step h _ ih => exact .cons h ih

theorem _root_.Thpronun.Spec.MaxPath.ne_nil {d : DAG V} {n p} (h : MaxPath d n p) : p ≠ [] := by
  cases h <;> simp

theorem _root_.Thpronun.Spec.MaxPath.out_ne_nil {d : DAG V} {n p} (h : MaxPath d n p) : d.outEdges n ≠ [] := by
  cases h with
  | last h _ => exact List.ne_nil_of_mem h
  | step h _ => exact List.ne_nil_of_mem h

theorem walk_spec (d : DAG V) (fuel : Nat) (n : Int) (ps : List (List (Entry V)))
    (h : walk d fuel n = .ok ps) :
    (∀ p, p ∈ ps ↔ MaxPath d n p) ∧ (ps = [] ↔ d.outEdges n = []) ∧
    (d.mFrom.Nodup → ps.Nodup) := by
  induction fuel generalizing n ps with
  | zero => simp [walk] at h
  | succ fuel ih =>
    rw [walk] at h
    have hc : ∀ e ∈ d.outEdges n, ∃ c, walk d fuel e.target = .ok c := fun e he => by
      obtain ⟨b, hb⟩ := concatRes_inv h e he
      obtain ⟨c, hc, _⟩ := Res.bind_eq_ok.mp hb
      exact ⟨c, hc⟩
    have hex : ∃ c : Entry V → List (List (Entry V)), ∀ e ∈ d.outEdges n,
        walk d fuel e.target = .ok (c e) :=
      ⟨fun e => match walk d fuel e.target with | .ok c => c | _ => [],
        fun e he => by obtain ⟨c, hc⟩ := hc e he; simp [hc]⟩
    obtain ⟨c, hc⟩ := hex
    have hg : ∀ e ∈ d.outEdges n, (do
        let child ← walk d fuel e.target
        if child.length = 0 then pure [[e]] else pure (child.map fun s => e :: s) : Res _) =
        .ok (if c e = [] then [[e]] else (c e).map fun s => e :: s) := fun e he => by
      rw [hc e he]
      by_cases h0 : c e = [] <;> simp [h0]
    rw [concatRes_ok hg] at h
    cases h
    refine ⟨fun p => ?_, ?_, fun hnd => ?_⟩
    · rw [List.mem_flatMap]
      constructor
      · rintro ⟨e, he, hp⟩
        obtain ⟨h1, h2, _⟩ := ih e.target (c e) (hc e he)
        by_cases h0 : c e = []
        · rw [if_pos h0, List.mem_singleton] at hp
          subst hp
          exact .last he (h2.mp h0)
        · rw [if_neg h0, List.mem_map] at hp
          obtain ⟨q, hq, rfl⟩ := hp
          exact .step he ((h1 q).mp hq)
      · intro hp
        cases hp with
        | last he hl =>
          refine ⟨_, he, ?_⟩
          rw [if_pos ((ih _ _ (hc _ he)).2.1.mpr hl)]
          simp
        | step he hq =>
          have hi := ih _ _ (hc _ he)
          refine ⟨_, he, ?_⟩
          rw [if_neg (fun h0 => hq.out_ne_nil (hi.2.1.mp h0)), List.mem_map]
          exact ⟨_, (hi.1 _).mpr hq, rfl⟩
    · rw [List.flatMap_eq_nil_iff]
      constructor
      · intro hall
        rw [List.eq_nil_iff_forall_not_mem]
        intro e he
        have := hall e he
        split at this
        · simp at this
        · rename_i h0
          exact h0 (List.map_eq_nil_iff.mp this)
      · intro h0; rw [h0]; simp
    · rw [List.nodup_flatMap]
      constructor
      · intro e he
        split
        · simp
        · exact ((ih _ _ (hc e he)).2.2 hnd).map fun a b hab => (List.cons.inj hab).2
      · have hn : (d.outEdges n).Nodup := hnd.filter _
        refine hn.imp_of_mem fun {a b} _ _ hab => ?_
        intro p ha hb
        have head : ∀ e : Entry V, p ∈ (if c e = [] then [[e]] else (c e).map fun s => e :: s) →
            p.head? = some e := fun e hp => by
          split at hp
          · rw [List.mem_singleton] at hp; rw [hp]; rfl
          · rw [List.mem_map] at hp; obtain ⟨q, _, rfl⟩ := hp; rfl
        exact hab (Option.some.inj ((head a ha).symm.trans (head b hb)))

/-- If all paths are shorter than the fuel, the enumeration succeeds. -/
theorem walk_ok (d : DAG V) (fuel : Nat) (n : Int) (h : ∀ p, IsPath d n p → p.length < fuel) :
    ∃ ps, walk d fuel n = .ok ps := by
  induction fuel generalizing n with
  | zero => exact absurd (h [] .nil) (by simp)
  | succ fuel ih =>
    have hc : ∀ e ∈ d.outEdges n, ∃ c, walk d fuel e.target = .ok c := fun e he => ih _ fun p hp => by
      have := h _ (.cons he hp)
      simp at this; omega
    have hg : ∀ e ∈ d.outEdges n, (do
        let child ← walk d fuel e.target
        if child.length = 0 then pure [[e]] else pure (child.map fun s => e :: s) : Res _) =
        .ok (match walk d fuel e.target with
          | .ok c => if c = [] then [[e]] else c.map fun s => e :: s | _ => []) := fun e he => by
      obtain ⟨c, hc⟩ := hc e he
      rw [hc]
      by_cases h0 : c = [] <;> simp [h0]
    exact ⟨_, by rw [walk]; exact concatRes_ok hg⟩

theorem IsPath.mem {d : DAG V} {n p} (h : IsPath d n p) : ∀ e ∈ p, e ∈ d.mFrom := by
  induction h with
  | nil => simp
  | cons he _ ih =>
    intro e h
    rcases List.mem_cons.mp h with rfl | h
    · exact (mem_outEdges.mp he).1
    · exact ih e h

/-- Every edge on a path starts at a node reachable from the beginning. -/
theorem IsPath.reach {d : DAG V} {n p} (h : IsPath d n p) :
    ∀ e ∈ p, Relation.ReflTransGen (Arrow d) n e.key := by
  induction h with
  | nil => simp
  | cons he _ ih =>
    intro e h
    rcases List.mem_cons.mp h with rfl | h
    · rw [(mem_outEdges.mp he).2]
    · exact .head ⟨_, he, rfl⟩ (ih e h)

theorem IsPath.nodup {d : DAG V} (ha : Acyclic d) {n p} (h : IsPath d n p) : p.Nodup := by
  induction h with
  | nil => simp
  | @cons n e p he hp ih =>
    refine List.nodup_cons.mpr ⟨fun hm => ?_, ih⟩
    have h1 := hp.reach e hm
    have h2 : Arrow d e.key e.target := ⟨e, by rw [(mem_outEdges.mp he).2]; exact he, rfl⟩
    exact ha _ (Relation.TransGen.head' h2 h1)

theorem IsPath.length_le {d : DAG V} (ha : Acyclic d) {n p} (h : IsPath d n p) :
    p.length ≤ d.mFrom.length :=
  (List.subperm_of_subset (h.nodup ha) (fun e he => h.mem e he)).length_le

theorem walk_acyclic {d : DAG V} (ha : Acyclic d) (n : Int) :
    ∃ ps, walk d (d.mFrom.length + 1) n = .ok ps :=
  walk_ok _ _ _ fun _ hp => Nat.lt_succ_of_le (hp.length_le ha)

/-- Any path can be continued to a maximal one. -/
theorem IsPath.extend {d : DAG V} (ha : Acyclic d) (n : Int) (hn : d.outEdges n ≠ []) :
    ∃ p, MaxPath d n p := by
  obtain ⟨ps, hps⟩ := walk_acyclic ha n
  obtain ⟨h1, h2, _⟩ := walk_spec d _ n ps hps
  obtain ⟨p, hp⟩ := List.exists_mem_of_ne_nil ps (fun h => hn (h2.mp h))
  exact ⟨p, (h1 p).mp hp⟩

/-- A maximal path from `n` through an edge whose source is reachable from `n`. -/
theorem exists_maxPath_through {d : DAG V} (ha : Acyclic d) {n : Int} {e : Entry V}
    (he : e ∈ d.mFrom) (hr : Relation.ReflTransGen (Arrow d) n e.key) :
    ∃ p q, MaxPath d n (p ++ e :: q) := by
  have base : ∃ q, MaxPath d e.key (e :: q) := by
    by_cases hl : d.outEdges e.target = []
    · exact ⟨[], .last (mem_outEdges.mpr ⟨he, rfl⟩) hl⟩
    · obtain ⟨q, hq⟩ := IsPath.extend ha _ hl
      exact ⟨q, .step (mem_outEdges.mpr ⟨he, rfl⟩) hq⟩
  obtain ⟨q, hq⟩ := base
  induction hr using Relation.ReflTransGen.head_induction_on with
  | refl => exact ⟨[], q, hq⟩
  | head h _ ih =>
    obtain ⟨f, hf, rfl⟩ := h
    obtain ⟨p, q, hp⟩ := ih
    exact ⟨f :: p, q, .step hf hp⟩

theorem _root_.Thpronun.Spec.MaxPath.last_leaf {d : DAG V} {n p} (h : MaxPath d n p) :
    ∀ e ∈ p.getLast?, d.outEdges e.target = [] := by
  induction h with
  | last _ hl => intro e he; simp at he; subst he; exact hl
  | step _ hq ih =>
    intro e he
    rw [List.getLast?_cons_of_ne_nil hq.ne_nil] at he
    exact ih e he

/-- Consecutive edges of a path meet. -/
theorem IsPath.key_eq {d : DAG V} {n p} (h : IsPath d n p) (q r : List (Entry V)) (e : Entry V)
    (hp : p = q ++ e :: r) :
    e.key = (match q.getLast? with | none => n | some f => f.target) := by
  induction h generalizing q with
  | nil => simp at hp
  | @cons n f p hf _ ih =>
    cases q with
    | nil => simp only [List.nil_append, List.cons.injEq] at hp; rw [← hp.1]; exact (mem_outEdges.mp hf).2
    | cons g q =>
      simp only [List.cons_append, List.cons.injEq] at hp
      rw [ih q hp.2, ← hp.1]
      cases q with
      | nil => rfl
      | cons a q => 
        rw [List.getLast?_cons_of_ne_nil (x := f) (xs := a :: q) (by simp),
          List.getLast?_eq_some_getLast (List.cons_ne_nil a q)]

end DAG

theorem DAG.walk_mapped {V : Type u} (d : DAG V) (F : Nat → Int → Res (List (List V)))
    (h0 : ∀ n, F 0 n = .diverge)
    (hs : ∀ fuel n, F (fuel + 1) n = concatRes (fun (x : Entry V) => do
      let child ← F fuel x.target
      if child.length = 0 then pure [[x.val]]
      else pure (child.map fun s => [x.val] ++ s)) (d.outEdges n)) (fuel : Nat) (n : Int) :
    F fuel n = walk d fuel n >>= fun ps => .ok (ps.map fun p => p.map Entry.val) := by
  induction fuel generalizing n with
  | zero => rw [h0]; rfl
  | succ fuel ih =>
    rw [hs, walk, concatRes_map]
    congr 1
    funext x
    rw [ih]
    cases walk d fuel x.target with
    | ok c =>
      by_cases hc : c = []
      · simp [hc]
      · have hl : ¬ c.length = 0 := by simpa using hc
        simp [hc]
    | _ => simp

theorem PronunDAG.sylStrings_walk (d : PronunDAG) (n : Int) :
    PronunDAG.sylStrings d n = DAG.walk d (d.mFrom.length + 1) n >>=
      fun ps => .ok (ps.map fun p => p.map Entry.val) :=
  DAG.walk_mapped d (PronunDAG.sylStringsAux d) (fun _ => rfl) (fun _ _ => rfl) _ _

theorem FracDAG.nodeLattice_walk (d : FracDAG) (fuel : Nat) (n : Int) :
    FracDAG.nodeLattice d fuel n = DAG.walk d fuel n >>=
      fun ps => .ok (ps.map fun p => p.map Entry.val) :=
  DAG.walk_mapped d (FracDAG.nodeLattice d) (fun _ => rfl) (fun _ _ => rfl) _ _

/-- A DAG whose edges always increase the node number is acyclic. -/
theorem acyclic_of_rank {V : Type u} {d : DAG V} (rank : Int → Int)
    (h : ∀ e ∈ d.mFrom, rank e.key < rank e.target) : Acyclic d := by
  have : ∀ a b, Relation.TransGen (Arrow d) a b → rank a < rank b := by
    intro a b hab
    induction hab with
    | single h1 =>
      obtain ⟨e, he, rfl⟩ := h1
      obtain ⟨he', rfl⟩ := DAG.mem_outEdges.mp he
      exact h e he'
    | tail _ h1 ih =>
      obtain ⟨e, he, rfl⟩ := h1
      obtain ⟨he', rfl⟩ := DAG.mem_outEdges.mp he
      exact ih.trans (h e he')
  exact fun n hn => absurd (this n n hn) (lt_irrefl _)

theorem edge_addSylString (d : PronunDAG) (n : Int) (s : SylString) (u v : Int) (x : Syl) :
    Edge (PronunDAG.addSylString d n s) u v x ↔ Edge d u v x ∨
      ∃ p y r, s = p ++ y :: r ∧ v = y.endPos ∧ Syl.eq y x = true ∧
        u = (match p.getLast? with | none => n | some z => z.endPos) := by
  induction s generalizing d n with
  | nil => simp [PronunDAG.addSylString]
  | cons a s ih =>
    rw [PronunDAG.addSylString, ih, DAG.edge_addEdge]
    constructor
    · rintro ((h | ⟨rfl, rfl, h⟩) | ⟨p, y, r, rfl, hv, hx, hu⟩)
      · exact .inl h
      · exact .inr ⟨[], a, s, rfl, rfl, h, rfl⟩
      · refine .inr ⟨a :: p, y, r, rfl, hv, hx, ?_⟩
        cases p with
        | nil => simpa using hu
        | cons b p =>
          rw [List.getLast?_cons_of_ne_nil (by simp), List.getLast?_eq_some_getLast (by simp)]
          rw [List.getLast?_eq_some_getLast (by simp)] at hu
          exact hu
    · rintro (h | ⟨p, y, r, hs, hv, hx, hu⟩)
      · exact .inl (.inl h)
      · cases p with
        | nil =>
          simp only [List.nil_append, List.cons.injEq] at hs
          obtain ⟨rfl, rfl⟩ := hs
          exact .inl (.inr ⟨hu, hv, hx⟩)
        | cons b p =>
          simp only [List.cons_append, List.cons.injEq] at hs
          obtain ⟨rfl, rfl⟩ := hs
          refine .inr ⟨p, y, r, rfl, hv, hx, ?_⟩
          cases p with
          | nil => simpa using hu
          | cons c p =>
            rw [List.getLast?_cons_of_ne_nil (by simp), List.getLast?_eq_some_getLast (by simp)] at hu
            rw [List.getLast?_eq_some_getLast (by simp)]
            exact hu

theorem edge_foldl_addSylString (ss : List SylString) (d : PronunDAG) (u v : Int) (x : Syl) :
    Edge (ss.foldl (fun d s => PronunDAG.addSylString d 0 s) d) u v x ↔ Edge d u v x ∨
      ∃ s ∈ ss, ∃ y, StringEdge s u v y ∧ Syl.eq y x = true := by
  induction ss generalizing d with
  | nil => simp
  | cons a ss ih =>
    rw [List.foldl_cons, ih, edge_addSylString]
    simp only [List.mem_cons, exists_eq_or_imp, or_assoc]
    apply or_congr Iff.rfl
    apply or_congr _ Iff.rfl
    constructor
    · rintro ⟨p, y, r, hs, hv, hx, hu⟩; exact ⟨y, ⟨p, r, hs, hv, hu⟩, hx⟩
    · rintro ⟨y, ⟨p, r, hs, hv, hu⟩, hx⟩; exact ⟨p, y, r, hs, hv, hx, hu⟩

end Thpronun
