import Verif.Lemmas.Order
import Verif.Model.Cli
import Verif.Props.Readings

/-! # A DAG rebuilt from its listing has its edges in the same order: helper lemmas -/

namespace Thpronun
open Res Spec DAG Classical

/-! ## First occurrences -/

/-- The elements of `l` that are not in `acc`, each once, behind `acc`. -/
noncomputable def firsts {α : Type} (acc l : List α) : List α :=
  l.foldl (fun acc x => if x ∈ acc then acc else acc ++ [x]) acc

theorem firsts_append {α : Type} (acc l m : List α) : firsts acc (l ++ m) = firsts (firsts acc l) m :=
  List.foldl_append

theorem firsts_mem {α : Type} {acc l : List α} (h : ∀ x ∈ l, x ∈ acc) : firsts acc l = acc := by
  induction l generalizing acc with
  | nil => rfl
  | cons x l ih =>
    unfold firsts
    rw [List.foldl_cons, if_pos (h x (by simp))]
    exact ih fun y hy => h y (by simp [hy])

theorem firsts_nodup {α : Type} {acc l : List α} (h : (acc ++ l).Nodup) : firsts acc l = acc ++ l := by
  induction l generalizing acc with
  | nil => simp [firsts]
  | cons x l ih =>
    have hx : x ∉ acc := fun hx => (List.nodup_append.mp h).2.2 x hx x (by simp) rfl
    unfold firsts
    rw [List.foldl_cons, if_neg hx]
    have := ih (acc := acc ++ [x]) (by simpa using h)
    rw [List.append_assoc] at this
    exact this

/-- The list is empty, or its first occurrences are `X`. -/
def Refills {α : Type} (X l : List α) : Prop := (∀ x ∈ l, x ∈ X) ∧ (l = [] ∨ firsts [] l = X)

theorem Refills.nil {α : Type} {X : List α} : Refills X [] := ⟨fun _ h => (by cases h), .inl rfl⟩

theorem Refills.append {α : Type} {X l m : List α} (hl : Refills X l) (hm : Refills X m) : Refills X (l ++ m) := by
  refine ⟨fun x hx => (List.mem_append.mp hx).elim (hl.1 x) (hm.1 x), ?_⟩
  rcases hl.2 with rfl | h
  · exact hm.2
  · right
    rw [firsts_append, h, firsts_mem hm.1]

theorem Refills.flatMap {α β : Type} {X : List α} {f : β → List α} {l : List β} (h : ∀ b ∈ l, Refills X (f b)) :
    Refills X (l.flatMap f) := by
  induction l with
  | nil => exact .nil
  | cons b l ih =>
    rw [List.flatMap_cons]
    exact (h b (by simp)).append (ih fun b hb => h b (by simp [hb]))

theorem firsts_repeat {α β : Type} {l : List α} {f : α → List β} {acc : List β} {g : α → β}
    (h : ∀ a ∈ l, f a ≠ [] ∧ ∀ b ∈ f a, b = g a) (hn : (acc ++ l.map g).Nodup) :
    firsts acc (l.flatMap f) = acc ++ l.map g := by
  induction l generalizing acc with
  | nil => simp [firsts]
  | cons a l ih =>
    rw [List.flatMap_cons, firsts_append]
    obtain ⟨h1, h2⟩ := h a (by simp)
    have hfa : firsts acc (f a) = acc ++ [g a] := by
      obtain ⟨b, t, hb⟩ := List.exists_cons_of_ne_nil h1
      rw [hb] at h2 ⊢
      obtain rfl := h2 b (by simp)
      have hg : g a ∉ acc := fun hx => (List.nodup_append.mp hn).2.2 _ hx _ (by simp) rfl
      have h1' : firsts acc [g a] = acc ++ [g a] := by simp [firsts, hg]
      rw [show g a :: t = [g a] ++ t from rfl, firsts_append, h1']
      exact firsts_mem fun x hx => by rw [h2 x (by simp [hx])]; simp
    rw [hfa, ih (fun x hx => h x (by simp [hx])) (by simpa using hn)]
    simp

/-! ## Edges added one by one -/

/-- No two different edges of the list are equal for `operator==`. -/
def Apart (X : List (Entry Syl)) : Prop :=
  ∀ a ∈ X, ∀ b ∈ X, a.key = b.key → a.target = b.target → ceq a.val b.val = true → a = b

theorem apart_of_built {d : PronunDAG} (h : Built d) : Apart d.mFrom := by
  have hp := (C13_distinct d h).1
  intro a ha b hb h1 h2 h3
  by_contra hne
  obtain ⟨i, hi, rfl⟩ := List.mem_iff_getElem.mp ha
  obtain ⟨j, hj, rfl⟩ := List.mem_iff_getElem.mp hb
  rcases Nat.lt_trichotomy i j with hl | rfl | hl
  · exact List.pairwise_iff_getElem.mp hp i j hi hj hl ⟨h1, h2, h3⟩
  · exact hne rfl
  · refine List.pairwise_iff_getElem.mp hp j i hj hi hl ⟨h1.symm, h2.symm, ?_⟩
    exact LawfulCppEq.symm h3

theorem nodup_mFrom {d : PronunDAG} (h : Built d) : d.mFrom.Nodup := by
  refine (C13_distinct d h).1.imp ?_
  rintro a b hn rfl
  exact hn ⟨rfl, rfl, LawfulCppEq.refl _⟩

theorem addEdges_order {X : List (Entry Syl)} (hX : Apart X) {d : PronunDAG} (hb : Built d) (hd : ∀ e ∈ d.mFrom, e ∈ X)
    {es : List (Entry Syl)} (hes : ∀ e ∈ es, e ∈ X) (n : Int) :
    (addEdges d es).outEdges n = firsts (d.outEdges n) (es.filter fun e => e.key = n) := by
  induction es generalizing d with
  | nil => rfl
  | cons e es ih =>
    rw [addAll_cons]
    have hmem : d.isEdgeExist e.key e.target e.val = true ↔ e ∈ d.mFrom := by
      rw [DAG.isEdgeExist_edge]
      constructor
      · rintro ⟨x, hx, ht, hv⟩
        obtain ⟨hx, hk⟩ := mem_outEdges.mp hx
        rw [← hX x (hd x hx) e (hes e (by simp)) hk ht hv]
        exact hx
      · exact fun h => ⟨e, mem_outEdges.mpr ⟨h, rfl⟩, rfl, LawfulCppEq.refl _⟩
    have hb' : Built (d.addEdge e.key e.target e.val).1 := .addEdge _ _ _ hb
    by_cases he : e ∈ d.mFrom
    · have h0 : (d.addEdge e.key e.target e.val).1 = d := by
        unfold DAG.addEdge; rw [hmem.mpr he]; rfl
      rw [h0, ih hb hd fun x hx => hes x (by simp [hx])]
      by_cases hk : e.key = n
      · rw [List.filter_cons_of_pos (by simpa using hk)]
        unfold firsts
        rw [List.foldl_cons, if_pos (mem_outEdges.mpr ⟨he, hk⟩)]
      · rw [List.filter_cons_of_neg (by simpa using hk)]
    · have hf : d.isEdgeExist e.key e.target e.val = false := by
        rw [← Bool.not_eq_true, hmem]; exact he
      have ho : ∀ n, (d.addEdge e.key e.target e.val).1.outEdges n = d.outEdges n ++ if e.key = n then [e] else [] := by
        intro n
        unfold DAG.addEdge
        rw [hf]
        exact equalRange_emplace (C13_sorted d hb).1 _ _
      have hd' : ∀ x ∈ (d.addEdge e.key e.target e.val).1.mFrom, x ∈ X := by
        intro x hx
        have := mem_outEdges.mpr ⟨hx, rfl⟩
        rw [ho] at this
        rcases List.mem_append.mp this with h | h
        · exact hd x (mem_outEdges.mp h).1
        · split at h
          · rw [List.mem_singleton] at h; rw [h]; exact hes e (by simp)
          · cases h
      rw [ih hb' hd' fun x hx => hes x (by simp [hx]), ho]
      by_cases hk : e.key = n
      · rw [List.filter_cons_of_pos (by simpa using hk), if_pos hk]
        unfold firsts
        rw [List.foldl_cons, if_neg fun h => he (mem_outEdges.mp h).1]
      · rw [List.filter_cons_of_neg (by simpa using hk), if_neg hk, List.append_nil]

/-! ## The listing -/

theorem walk_covers {d : PronunDAG} (ha : Acyclic d) (hn : d.mFrom.Nodup) (fuel : Nat) (u n : Int)
    (ps : List (List (Entry Syl))) (h : DAG.walk d fuel u = .ok ps) :
    Refills (d.outEdges n) (ps.flatten.filter fun e => e.key = n) := by
  induction fuel generalizing u ps with
  | zero => simp [DAG.walk] at h
  | succ fuel ih =>
    rw [DAG.walk] at h
    obtain ⟨c, hc⟩ : ∃ c : Entry Syl → List (List (Entry Syl)), ∀ e ∈ d.outEdges u, DAG.walk d fuel e.target = .ok (c e) :=
      ⟨fun e => match DAG.walk d fuel e.target with | .ok c => c | _ => [], fun e he => by
        obtain ⟨b, hb⟩ := concatRes_inv h e he
        obtain ⟨c, hc, _⟩ := Res.bind_eq_ok.mp hb
        simp [hc]⟩
    have hg : ∀ e ∈ d.outEdges u, (do
        let child ← DAG.walk d fuel e.target
        if child.length = 0 then pure [[e]] else pure (child.map fun s => e :: s) : Res _) =
        .ok (if c e = [] then [[e]] else (c e).map fun s => e :: s) := fun e he => by
      rw [hc e he]
      by_cases h0 : c e = [] <;> simp [h0]
    rw [concatRes_ok hg] at h
    cases h
    rw [List.flatten_eq_flatMap, List.flatMap_assoc, List.filter_flatMap]
    by_cases hu : u = n
    · subst hu
      have hrep : ∀ e ∈ d.outEdges u, (List.flatMap id (if c e = [] then [[e]] else (c e).map fun s => e :: s)).filter
          (fun e => decide (e.key = u)) ≠ [] ∧ ∀ b ∈ (List.flatMap id (if c e = [] then [[e]] else (c e).map fun s => e :: s)).filter
          (fun e => decide (e.key = u)), b = e := by
        intro e he
        have hk := (mem_outEdges.mp he).2
        constructor
        · intro h0
          rw [List.filter_eq_nil_iff] at h0
          refine h0 e ?_ (by simpa using hk)
          split
          · simp
          · rename_i hne
            obtain ⟨s, t, hs⟩ := List.exists_cons_of_ne_nil hne
            rw [hs]; simp
        · intro b hb
          obtain ⟨hb, hbk⟩ := List.mem_filter.mp hb
          have hbk : b.key = u := of_decide_eq_true hbk
          obtain ⟨q, hq, hbq⟩ := List.mem_flatMap.mp hb
          split at hq
          · rw [List.mem_singleton] at hq; subst hq; simpa using hbq
          · obtain ⟨s, hs, rfl⟩ := List.mem_map.mp hq
            rcases List.mem_cons.mp hbq with rfl | hbq
            · rfl
            · exfalso
              have hp := (((DAG.walk_spec d _ _ _ (hc e he)).1 s).mp hs).isPath
              obtain ⟨a, r, hs'⟩ := List.append_of_mem hbq
              rw [hs'] at hp
              have key : ∀ (m : Int) (a : List (Entry Syl)), IsPath d m (a ++ b :: r) → Relation.ReflTransGen (Arrow d) m b.key := by
                intro m a
                induction a generalizing m with
                | nil =>
                  intro h
                  cases h with
                  | cons h1 h2 => rw [(mem_outEdges.mp h1).2]
                | cons x a ih =>
                  intro h
                  cases h with
                  | cons h1 h2 => exact .head ⟨x, h1, rfl⟩ (ih _ h2)
              have h1 := key _ a hp
              rw [hbk] at h1
              exact ha u (.head' ⟨e, he, rfl⟩ h1)
      have hnd : (d.outEdges u).Nodup := hn.filter _
      have := firsts_repeat (acc := []) (g := id) hrep (by simpa using hnd)
      simp only [List.map_id, List.nil_append] at this
      refine ⟨fun x hx => ?_, .inr this⟩
      obtain ⟨e, he, hx⟩ := List.mem_flatMap.mp hx
      rw [(hrep e he).2 x hx]; exact he
    · refine Refills.flatMap fun e he => ?_
      have hk := (mem_outEdges.mp he).2
      have hne : ¬ e.key = n := by rw [hk]; exact hu
      split
      · simp only [List.flatMap_cons, List.flatMap_nil, id, List.append_nil, List.filter_cons, hne, decide_false]
        exact .nil
      · have heq : (List.flatMap id ((c e).map fun s => e :: s)).filter (fun e => decide (e.key = n)) =
            (c e).flatten.filter fun e => decide (e.key = n) := by
          rw [List.flatMap_map, List.filter_flatMap, List.flatten_eq_flatMap, List.filter_flatMap]
          congr 1
          funext s
          simp [hne]
        rw [heq]
        exact ih _ _ (hc e he)

theorem isPath_edges {d : PronunDAG} (hend : ∀ e ∈ d.mFrom, e.val.endPos = e.target) {n : Int} {p : List (Entry Syl)}
    (h : IsPath d n p) : pathEdges n (p.map Entry.val) = p := by
  induction h with
  | nil => rfl
  | @cons n e p he _ ih =>
    obtain ⟨hm, rfl⟩ := mem_outEdges.mp he
    rw [List.map_cons, pathEdges, hend e hm, ih]

theorem ofStrings_eq (ss : List SylString) : PronunDAG.ofStrings ss = addEdges DAG.empty (ss.flatMap (pathEdges 0)) := by
  unfold PronunDAG.ofStrings
  generalize (DAG.empty : PronunDAG) = d
  induction ss generalizing d with
  | nil => rfl
  | cons s ss ih => rw [List.foldl_cons, List.flatMap_cons, addAll_append, ih, addSylString_eq]

/-- A DAG rebuilt from its listing has the same outgoing edges in the same order. -/
theorem rebuild_order {d : PronunDAG} (hb : Built d) (ha : Acyclic d)
    (hr : ∀ e ∈ d.mFrom, Relation.ReflTransGen (Arrow d) 0 e.key) (hend : ∀ e ∈ d.mFrom, e.val.endPos = e.target)
    {ss : List SylString} (hs : PronunDAG.sylStrings d 0 = .ok ss) (n : Int) :
    (PronunDAG.ofStrings ss).outEdges n = d.outEdges n := by
  obtain ⟨ps, hps⟩ := DAG.walk_acyclic ha 0
  have hsp := (DAG.walk_spec d _ 0 ps hps).1
  rw [PronunDAG.sylStrings_walk, hps] at hs
  cases hs
  have hflat : (ps.map fun p => p.map Entry.val).flatMap (pathEdges 0) = ps.flatten := by
    rw [List.flatMap_map, List.flatten_eq_flatMap]
    exact List.flatMap_congr fun p hp => isPath_edges hend ((hsp p).mp hp).isPath
  have hall : ∀ e ∈ ps.flatten, e ∈ d.mFrom := by
    intro e he
    obtain ⟨p, hp, he⟩ := List.mem_flatten.mp he
    exact ((hsp p).mp hp).isPath.mem e he
  rw [ofStrings_eq, hflat, addEdges_order (apart_of_built hb) .empty (fun e he => by cases he) hall]
  have hcov := walk_covers ha (nodup_mFrom hb) _ 0 n ps hps
  show firsts [] _ = _
  rcases hcov.2 with h | h
  · rw [h]
    show [] = _
    by_contra hne
    obtain ⟨e, t, he⟩ := List.exists_cons_of_ne_nil (Ne.symm hne)
    have hm : e ∈ d.outEdges n := by rw [he]; simp
    obtain ⟨hm, hk⟩ := mem_outEdges.mp hm
    obtain ⟨p, q, hpq⟩ := DAG.exists_maxPath_through ha hm (hr e hm)
    have : e ∈ ps.flatten.filter fun e => e.key = n :=
      List.mem_filter.mpr ⟨List.mem_flatten.mpr ⟨_, (hsp _).mpr hpq, by simp⟩, by simpa using hk⟩
    rw [h] at this
    cases this
  · exact h

theorem sorted_ext {l m : List (Entry Syl)} (hl : DAG.Sorted l) (hm : DAG.Sorted m)
    (h : ∀ n, DAG.equalRange l n = DAG.equalRange m n) : l = m := by
  have hmem : ∀ {l m : List (Entry Syl)}, (∀ n, DAG.equalRange l n = DAG.equalRange m n) → ∀ e ∈ l, e ∈ m := by
    intro l m h e he
    have : e ∈ DAG.equalRange l e.key := List.mem_filter.mpr ⟨he, by simp⟩
    rw [h] at this
    exact (List.mem_filter.mp this).1
  induction l generalizing m with
  | nil =>
    cases m with
    | nil => rfl
    | cons y m => exact absurd (hmem (fun n => (h n).symm) y (by simp)) (by simp)
  | cons x l ih =>
    cases m with
    | nil => exact absurd (hmem h x (by simp)) (by simp)
    | cons y m =>
      obtain ⟨l1, l2⟩ := List.pairwise_cons.mp hl
      obtain ⟨m1, m2⟩ := List.pairwise_cons.mp hm
      have hxy : x.key = y.key := by
        have h1 : y.key ≤ x.key := by
          rcases List.mem_cons.mp (hmem h x (by simp)) with rfl | h'
          · exact le_rfl
          · exact m1 x h'
        have h2 : x.key ≤ y.key := by
          rcases List.mem_cons.mp (hmem (fun n => (h n).symm) y (by simp)) with rfl | h'
          · exact le_rfl
          · exact l1 y h'
        omega
      have h0 := h x.key
      unfold DAG.equalRange at h0
      rw [List.filter_cons_of_pos (by simp), List.filter_cons_of_pos (by simp [hxy])] at h0
      injection h0 with h1 _
      subst h1
      congr 1
      refine ih l2 m2 fun n => ?_
      have h0 := h n
      unfold DAG.equalRange at h0 ⊢
      by_cases hk : x.key = n
      · rw [List.filter_cons_of_pos (by simpa using hk), List.filter_cons_of_pos (by simpa using hk)] at h0
        injection h0
      · rwa [List.filter_cons_of_neg (by simpa using hk), List.filter_cons_of_neg (by simpa using hk)] at h0

theorem built_addEdges {d : PronunDAG} (h : Built d) (es : List (Entry Syl)) : Built (addEdges d es) := by
  induction es generalizing d with
  | nil => exact h
  | cons e es ih => exact ih (.addEdge _ _ _ h)

theorem rebuild_mFrom {d : PronunDAG} (hb : Built d) (ha : Acyclic d)
    (hr : ∀ e ∈ d.mFrom, Relation.ReflTransGen (Arrow d) 0 e.key) (hend : ∀ e ∈ d.mFrom, e.val.endPos = e.target)
    {ss : List SylString} (hs : PronunDAG.sylStrings d 0 = .ok ss) : (PronunDAG.ofStrings ss).mFrom = d.mFrom := by
  have hb' : Built (PronunDAG.ofStrings ss) := by
    rw [ofStrings_eq]
    exact built_addEdges .empty _
  exact sorted_ext (C13_sorted _ hb').1 (C13_sorted _ hb).1 (rebuild_order hb ha hr hend hs)

theorem union_empty_mFrom {d : PronunDAG} (hb : Built d) : (DAG.empty.unionDAG d).mFrom = d.mFrom := by
  have h0 : DAG.empty.unionDAG d = addEdges DAG.empty d.mFrom := rfl
  have hb' : Built (DAG.empty.unionDAG d) := by rw [h0]; exact built_addEdges .empty _
  refine sorted_ext (C13_sorted _ hb').1 (C13_sorted _ hb).1 fun n => ?_
  show (DAG.empty.unionDAG d).outEdges n = d.outEdges n
  rw [h0, addEdges_order (apart_of_built hb) .empty (fun e he => by cases he) fun e he => he]
  exact firsts_nodup (acc := []) ((nodup_mFrom hb).filter _)

/-! ## Output -/

theorem sylStrings_congr {d e : PronunDAG} (h : d.mFrom = e.mFrom) (n : Int) :
    PronunDAG.sylStrings d n = PronunDAG.sylStrings e n := by
  have : ∀ (fuel : Nat) (n : Int), PronunDAG.sylStringsAux d fuel n = PronunDAG.sylStringsAux e fuel n := by
    intro fuel
    induction fuel with
    | zero => exact fun _ => rfl
    | succ fuel ih =>
      intro n
      have ho : d.outEdges n = e.outEdges n := by unfold DAG.outEdges; rw [h]
      rw [PronunDAG.sylStringsAux, PronunDAG.sylStringsAux, ho]
      simp only [ih]
  unfold PronunDAG.sylStrings
  rw [h, this]

theorem run_congr {d e : PronunDAG} (h : d.mFrom = e.mFrom) (k : Cli.OutKind) : k.run d = k.run e := by
  have hs := sylStrings_congr h 0
  have hf : PronunDAG.fracDAG d = PronunDAG.fracDAG e := by
    unfold PronunDAG.fracDAG PronunDAG.toFrac
    rw [h]
  cases k with
  | delim c s => unfold Cli.OutKind.run delimDag; simp only [hs]
  | roman => unfold Cli.OutKind.run romanDag; simp only [hs]
  | json c => unfold Cli.OutKind.run jsonDag; simp only [hs]
  | gjson c => unfold Cli.OutKind.run gjsonDag; simp only [hf]

theorem outputs_congr {d e : PronunDAG} (h : d.mFrom = e.mFrom) (ks : List Cli.OutKind) :
    Cli.outputsLoop d ks = Cli.outputsLoop e ks := by
  induction ks with
  | nil => rfl
  | cons k ks ih => rw [Cli.outputsLoop, Cli.outputsLoop, run_congr h, ih]

theorem texts_unique {f : SylString → Res Str} {l : List SylString} {t t' : List Str}
    (h : List.Forall₂ (fun s t => f s = .ok t) l t) (h' : List.Forall₂ (fun s t => f s = .ok t) l t') : t = t' := by
  induction h generalizing t' with
  | nil => cases h'; rfl
  | cons h _ ih =>
    cases h' with
    | cons g g' =>
      rw [h] at g
      cases g
      rw [ih g']

/-! ## Parsing a word of the dictionary -/

section
variable {ct : CType} {w : U16Str} {look : List Nat → Option Str} {brk : List Int}

theorem parse_whole (hct : ct.Ok) {dict : Option Dict} (hd : Holds dict look) (hb : ∀ b ∈ brk, b ≤ w.length)
    (hst : IsStop ct w brk 0 w.length) {data : Str} (hm : dictAt ct w look 0 w.length = [(w.length, data)])
    {strs : List SylString} (hmk : SylString.makeSylStrings data = .ok strs) :
    parseU16 ct w dict brk = .ok (DAG.empty.unionDAG (PronunDAG.ofStrings strs)) := by
  have hl : 0 < w.length := hst.lt
  obtain ⟨s, hs⟩ := refresh_ok (ct := ct) (s := ⟨0, 0, DAG.empty, false⟩) hb
  have hs0 : s = ⟨0, w.length, DAG.empty, false⟩ := by
    have hsat := refresh_sat (ct := ct) (brk := brk) (s := ⟨0, 0, DAG.empty, false⟩) hl
    rw [satP_iff] at hsat
    rcases hsat s hs with ⟨q, t, hgap, -⟩ | ⟨t, ht, rfl⟩
    · exact absurd (hst.tok 0 le_rfl hl) (hgap.no 0 le_rfl hgap.lt)
    · rw [ht.unique hst]
  subst hs0
  have hex : exceptDag ⟨0, w.length, DAG.empty, false⟩ strs = PronunDAG.ofStrings strs := by
    unfold exceptDag PronunDAG.ofStrings
    simp only [Nat.cast_zero, pathEdges_zero]
  have h1 : expand ct w dict brk ⟨0, w.length, DAG.empty, false⟩ =
      .ok [⟨w.length, w.length, PronunDAG.ofStrings strs, false⟩] := by
    unfold expand
    rw [if_neg (by simp only; omega)]
    unfold tokenStates
    have : exceptions ct w dict ⟨0, w.length, DAG.empty, false⟩ =
        .ok [⟨w.length, w.length, PronunDAG.ofStrings strs, false⟩] := by
      refine (exceptions_ok hd _ le_rfl (Nat.zero_le _) _).mpr ?_
      rw [hm]
      exact .cons ⟨strs, hmk, by rw [hex]⟩ .nil
    rw [this]
    rfl
  unfold parseU16 parseInit
  rw [hs]
  simp only [ok_bind, pure_eq]
  have h3 : iterLoop (parseStep ct w dict brk) 3 (StatePool.add [] ⟨0, w.length, DAG.empty, false⟩, DAG.empty) =
      .ok (DAG.empty.unionDAG (PronunDAG.ofStrings strs)) := by
    have e1 : parseStep ct w dict brk (StatePool.add [] ⟨0, w.length, DAG.empty, false⟩, DAG.empty) =
        .ok (.inl ([⟨w.length, w.length, PronunDAG.ofStrings strs, false⟩], DAG.empty)) := by
      show parseStep ct w dict brk ([⟨0, w.length, DAG.empty, false⟩], DAG.empty) = _
      rw [parseStep_cons hct, if_neg (by simp only; omega), h1]
      rfl
    have e2 : parseStep ct w dict brk ([⟨w.length, w.length, PronunDAG.ofStrings strs, false⟩], DAG.empty) =
        .ok (.inl ([], DAG.empty.unionDAG (PronunDAG.ofStrings strs))) := by
      rw [parseStep_cons hct, if_pos le_rfl]
    rw [iterLoop, e1]
    show iterLoop _ 2 _ = _
    rw [iterLoop, e2]
    rfl
  rw [whileLoop_eq (n := 3) (by rw [h3]; simp), h3]

end

end Thpronun
