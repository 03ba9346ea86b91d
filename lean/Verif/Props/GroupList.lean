import Verif.Spec.Woven
import Verif.Props.Entry
import Verif.Props.EndPos
import Verif.Props.Frac
import Verif.Props.Output

/-! # C79: grouped JSON of a list of pronunciations -/

namespace Thpronun
open Res Spec DAG

theorem stepIn_edge {l : List SylString} {u v : Int} {x : Syl} (h : StepIn l u v x) : Edge (PronunDAG.ofStrings l) u v x := by
  obtain ⟨s, hs, h⟩ := h
  exact (C16_ofStrings l u v x).mpr ⟨s, hs, x, h, Syl.eq_refl x⟩

theorem edge_stepIn {l : List SylString} {u : Int} {e : Entry Syl} (h : e ∈ (PronunDAG.ofStrings l).outEdges u) :
    ∃ x, StepIn l u e.target x ∧ Syl.eq e.val x = true := by
  obtain ⟨s, hs, y, hy, he⟩ := (C16_ofStrings l u e.target e.val).mp ⟨e, h, rfl, Syl.eq_refl _⟩
  exact ⟨y, ⟨s, hs, hy⟩, Syl.eq_symm he⟩

theorem woven_path {l : List SylString} {n : Int} {t : SylString} (h : Woven l n t) :
    ∃ p, MaxPath (PronunDAG.ofStrings l) n p ∧ List.Forall₂ (fun x y => Syl.eq x y = true) (p.map Entry.val) t := by
  induction h with
  | @last n m x h1 h2 =>
    obtain ⟨e, he, rfl, hx⟩ := stepIn_edge h1
    refine ⟨[e], .last he ?_, .cons hx .nil⟩
    by_contra hne
    obtain ⟨e', he'⟩ := List.exists_mem_of_ne_nil _ hne
    obtain ⟨y, hy, -⟩ := edge_stepIn he'
    exact h2 _ _ hy
  | @step n m x s h1 _ ih =>
    obtain ⟨e, he, rfl, hx⟩ := stepIn_edge h1
    obtain ⟨p, hp, hs⟩ := ih
    exact ⟨e :: p, .step he hp, .cons hx hs⟩

theorem path_woven {l : List SylString} {n : Int} {p : List (Entry Syl)} (h : MaxPath (PronunDAG.ofStrings l) n p) :
    ∃ t, Woven l n t ∧ List.Forall₂ (fun x y => Syl.eq x y = true) (p.map Entry.val) t := by
  induction h with
  | @last n e he hend =>
    obtain ⟨x, hx, hxe⟩ := edge_stepIn he
    refine ⟨[x], .last hx ?_, .cons hxe .nil⟩
    intro m' y hy
    obtain ⟨e', he', -⟩ := stepIn_edge hy
    rw [hend] at he'
    cases he'
  | @step n e p he _ ih =>
    obtain ⟨x, hx, hxe⟩ := edge_stepIn he
    obtain ⟨t, ht, hs⟩ := ih
    exact ⟨x :: t, .step hx ht, .cons hxe hs⟩

/-- The output is a JSON text that denotes, as choices of alternatives one after the other, exactly what can be put together
from the members of the list. -/
theorem C79_exact (l : List SylString) (rank : Int → Int)
    (h : ∀ u v x, StepIn l u v x → rank u < rank v ∧ v ≠ 0) :
    ∃ latt, (∀ s, (∃ t ∈ expandLatt latt, SylString.eq t s = true) ↔ ∃ t, Woven l 0 t ∧ SylString.eq t s = true) ∧
      ∀ out : SylOutput, ∀ txt : Syl → Str,
        (∀ u v x y, StepIn l u v x → Syl.eq y x = true → out y = .ok (txt y) ∧ JsonSafe (txt y)) →
        ∃ t, gjsonList out l = .ok t ∧ readJson t = some (jsonOfLatt txt latt) := by
  have hB : Built (PronunDAG.ofStrings l) := by rw [ofStrings_eq]; exact built_addEdges .empty _
  have hst : ∀ e ∈ (PronunDAG.ofStrings l).mFrom, ∃ x, StepIn l e.key e.target x ∧ Syl.eq e.val x = true :=
    fun e he => edge_stepIn (mem_outEdges.mpr ⟨he, rfl⟩)
  have ha : Acyclic (PronunDAG.ofStrings l) := acyclic_of_rank rank fun e he => by
    obtain ⟨x, hx, -⟩ := hst e he
    exact (h _ _ _ hx).1
  have hroot : ∀ u, ¬ Arrow (PronunDAG.ofStrings l) u 0 := by
    rintro u ⟨e, he, ht⟩
    obtain ⟨x, hx, -⟩ := edge_stepIn he
    exact (h _ _ _ hx).2 ht
  obtain ⟨ss, f, latt, h1, h2, h3, h4⟩ := C17_same_readings _ ha hroot
  obtain ⟨ps, k1, -, k3⟩ := C15_listing _ hB ha
  rw [h1] at k1
  cases k1
  refine ⟨latt, fun s => (h4 s).trans ?_, fun out txt ho => ?_⟩
  · constructor
    · rintro ⟨t, ht, hts⟩
      obtain ⟨p, hp, rfl⟩ := List.mem_map.mp ht
      obtain ⟨t, hw, he⟩ := path_woven ((k3 p).mp hp)
      exact ⟨t, hw, SylString.eq_trans (SylString.eq_symm ((SylString.eq_iff _ _).mpr he)) hts⟩
    · rintro ⟨t, hw, hts⟩
      obtain ⟨p, hp, he⟩ := woven_path hw
      exact ⟨_, List.mem_map.mpr ⟨p, (k3 p).mpr hp, rfl⟩, SylString.eq_trans ((SylString.eq_iff _ _).mpr he) hts⟩
  · obtain ⟨f', latt', t, e1, e2, e3, e4⟩ := C22_dag_partial out txt _ ha hroot fun e he => by
      obtain ⟨x, hx, hxe⟩ := hst e he
      exact ho _ _ _ _ hx hxe
    rw [h2] at e1
    cases e1
    rw [h3] at e2
    cases e2
    exact ⟨t, e3, e4⟩

theorem forward_steps {n : Int} (s : SylString) (p : Int) (h : Forward p n s) (u : Int) (x : Syl) (a b : SylString)
    (hs : s = a ++ x :: b) (hu : u = match a.getLast? with | none => p | some y => y.endPos) :
    place u < place x.endPos ∧ Forward x.endPos n b := by
  induction s generalizing p a with
  | nil => simp at hs
  | cons y s ih =>
    cases a with
    | nil => cases hs; subst hu; exact h
    | cons z a =>
      cases hs
      refine ih y.endPos h.2 a rfl ?_
      rw [hu]
      cases a with
      | nil => rfl
      | cons w a => simp [List.getLast?_cons]

theorem forward_place {n : Int} (s : SylString) (p : Int) (h : Forward p n s) : place p ≤ place n := by
  induction s generalizing p with
  | nil => rw [show p = n from h]
  | cons x s ih => have := ih _ h.2; have := h.1; omega

theorem forward_woven {l : List SylString} {n : Int} (hl : ∀ s ∈ l, Forward 0 n s) {s : SylString} (hs : s ∈ l)
    (a b : SylString) (hab : s = a ++ b) (hb : b ≠ []) : Woven l (SylString.endPos a) b := by
  induction b generalizing a with
  | nil => exact absurd rfl hb
  | cons x b ih =>
    have hstep : StepIn l (SylString.endPos a) x.endPos x := ⟨s, hs, a, b, hab, rfl, rfl⟩
    have hf := forward_steps s 0 (hl s hs) _ x a b hab rfl
    by_cases hne : b = []
    · subst hne
      refine .last hstep ?_
      rintro m' y ⟨s', hs', a', b', h1, h2, h3⟩
      have h4 := forward_steps s' 0 (hl s' hs') _ y a' b' h1 h3
      rw [show x.endPos = n from hf.2] at h4
      have := forward_place _ _ h4.2
      omega
    · have := ih (a ++ [x]) (by rw [hab]; simp) hne
      rw [(C78_value _).2 a x rfl] at this
      exact .step hstep this

/-- Pronunciations that all lead forward from 0 to the same end: the output is defined, and denotes every one of them, besides
what can be put together from them. (Missing: that it denotes nothing else.) -/
theorem C79_partial (l : List SylString) (n : Int) (hl : ∀ s ∈ l, s ≠ [] ∧ Forward 0 n s) :
    ∃ latt, (∀ s, (∃ t ∈ expandLatt latt, SylString.eq t s = true) ↔ ∃ t, Woven l 0 t ∧ SylString.eq t s = true) ∧
      (∀ s ∈ l, ∃ t ∈ expandLatt latt, SylString.eq t s = true) ∧
      ∀ out : SylOutput, ∀ txt : Syl → Str,
        (∀ u v x y, StepIn l u v x → Syl.eq y x = true → out y = .ok (txt y) ∧ JsonSafe (txt y)) →
        ∃ t, gjsonList out l = .ok t ∧ readJson t = some (jsonOfLatt txt latt) := by
  obtain ⟨latt, h1, h2⟩ := C79_exact l place (by
    rintro u v x ⟨s, hs, p, r, h1, rfl, h3⟩
    have h4 := (forward_steps s 0 (hl s hs).2 u x p r h1 h3).1
    refine ⟨h4, fun h0 => ?_⟩
    rw [h0] at h4
    unfold place at h4
    split at h4 <;> simp at h4 <;> omega)
  refine ⟨latt, h1, fun s hs => (h1 s).mpr ⟨s, ?_, SylString.eq_refl s⟩, h2⟩
  exact forward_woven (fun s hs => (hl s hs).2) hs [] s rfl (hl s hs).1

/-- The pronunciations listed for a word: the output for the list is that for the DAG, and denotes exactly the list. -/
theorem C79_listing {ct : CType} {look : List Nat → Option Str} {p : Parser} {word : Str} {w : U16Str} {d : PronunDAG}
    (hct : ct.Ok) (hw : fromBytes word = .ok w) (hd : Holds p.exceptDict look) (hg : GoodLook look)
    (h : p.parseWord ct word = .ok d) :
    ∃ ss f latt, PronunDAG.sylStrings d 0 = .ok ss ∧ (∀ out, gjsonList out ss = gjsonDag out d) ∧
      PronunDAG.fracDAG d = .ok f ∧ FracDAG.lattice f = .ok latt ∧ (∀ out, gjsonDag out d = gjsonLatt out latt) ∧
      ∀ s, (∃ t ∈ expandLatt latt, SylString.eq t s = true) ↔ ∃ t ∈ ss, SylString.eq t s = true := by
  obtain ⟨hb, ha⟩ := C38_acyclic hct hw hd hg h
  have hedge := fun e he => C38_edges hct hw hd hg h e he
  have hr : ∀ e ∈ d.mFrom, Relation.ReflTransGen (Arrow d) 0 e.key := fun e he => by
    have h' := h
    rw [C37_word p word w hw] at h'
    obtain ⟨q, hq, heq⟩ := edge_on_path hct hg hd h' he
    exact hq.isPath.reach e heq
  have hroot : ∀ u, ¬ Arrow d u 0 := by
    rintro u ⟨e, he, ht⟩
    obtain ⟨hm, hk⟩ := mem_outEdges.mp he
    obtain ⟨-, p1, p2, -⟩ := hedge e hm
    rw [ht] at p2
    unfold place at p1 p2
    split at p2 <;> simp at p2 <;> omega
  obtain ⟨ss, f, latt, h1, h2, h3, h4⟩ := C17_same_readings d ha hroot
  refine ⟨ss, f, latt, h1, fun out => ?_, h2, h3, fun out => ?_, h4⟩
  · have hm := rebuild_mFrom hb ha hr (fun e he => (hedge e he).1) h1
    unfold gjsonList gjsonDag PronunDAG.fracDAG PronunDAG.toFrac
    rw [hm]
  · simp only [gjsonDag, h2, h3, ok_bind]

private def ka (e : Int) : Syl := Syl.mk5 .KA SC.NONE VW.A .NONE .EK e
private def kha (e : Int) : Syl := Syl.mk5 .KHA SC.NONE VW.A .NONE .EK e
private def nga (e : Int) : Syl := Syl.mk5 .NGA SC.NONE VW.A .NONE .TRI e
private def ya (e : Int) : Syl := Syl.mk5 .YA SC.NONE VW.A .NONE .TRI e

/-- Two pronunciations that meet in the middle are taken for four. -/
theorem C79_false : gjsonList thaiSyl [[ka 1, nga 2], [kha 1, ya 2]] =
      .ok b!"[[[[\"กะ\"],[\"ขะ\"]],[[\"งะ\"],[\"ยะ\"]]]]" ∧
    (∀ s ∈ [[ka 1, nga 2], [kha 1, ya 2]], s ≠ [] ∧ Forward 0 2 s) ∧
    Woven [[ka 1, nga 2], [kha 1, ya 2]] 0 [ka 1, ya 2] ∧
    ∀ s ∈ [[ka 1, nga 2], [kha 1, ya 2]], SylString.eq [ka 1, ya 2] s = false := by
  refine ⟨by decide +kernel, by decide, ?_, by decide⟩
  refine .step (m := 1) ⟨_, List.mem_cons_self, [], [nga 2], rfl, rfl, rfl⟩ (.last (m := 2)
    ⟨[kha 1, ya 2], by simp, [kha 1], [], rfl, rfl, rfl⟩ ?_)
  rintro m y ⟨s, hs, p, r, h1, -, h3⟩
  have h4 : s = [ka 1, nga 2] ∨ s = [kha 1, ya 2] := by simpa using hs
  have hf : Forward 0 2 s := by rcases h4 with rfl | rfl <;> decide
  have h5 := forward_steps s 0 hf _ y p r h1 h3
  have := forward_place _ _ h5.2
  omega

/-- A pronunciation that ends where another goes on is not shown. -/
theorem C79_lost_false : gjsonList thaiSyl [[ka 1], [kha 1, ya 2]] =
      .ok b!"[[[[\"กะ\"],[\"ขะ\"]],[[\"ยะ\"]]]]" ∧
    ¬ ∃ t, Woven [[ka 1], [kha 1, ya 2]] 0 t ∧ SylString.eq t [ka 1] = true := by
  refine ⟨by decide +kernel, ?_⟩
  rintro ⟨t, ht, he⟩
  have hlen := ((SylString.eq_iff _ _).mp he).length_eq
  cases ht with
  | @last _ m x h1 h2 =>
    have hm : m = 1 := by
      obtain ⟨s, hs, p, r, h1, rfl, h3⟩ := h1
      have h4 : s = [ka 1] ∨ s = [kha 1, ya 2] := by simpa using hs
      rcases h4 with rfl | rfl <;> rcases p with _ | ⟨a, _ | ⟨b, p⟩⟩ <;> simp at h1 <;> obtain ⟨h5, h6⟩ := h1
      · rw [← h5]; rfl
      · rw [← h5]; rfl
      · subst h5; exact absurd h3 (by decide)
    subst hm
    exact h2 2 (ya 2) ⟨[kha 1, ya 2], by simp, [kha 1], [], rfl, rfl, rfl⟩
  | step _ h =>
    cases h <;> simp at hlen

/-- The hypotheses of `C79_exact` are met by positions in order. -/
example : ∀ u v x, StepIn [[ka 1, nga 2], [kha 1, ya 2]] u v x → id u < id v ∧ v ≠ 0 := by
  rintro u v x ⟨s, hs, p, r, h1, rfl, h3⟩
  have h4 : s = [ka 1, nga 2] ∨ s = [kha 1, ya 2] := by simpa using hs
  have hf : Forward 0 2 s := by rcases h4 with rfl | rfl <;> decide
  rcases h4 with rfl | rfl <;> rcases p with _ | ⟨a, _ | ⟨b, _ | ⟨c, p⟩⟩⟩ <;> simp at h1 <;>
    (obtain ⟨h5, h6⟩ := h1; subst h3; try subst h5) <;> first | decide | (obtain ⟨rfl, -⟩ := h6; decide)

end Thpronun
