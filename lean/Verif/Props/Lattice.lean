import Verif.Lemmas.Lattice

/-! # Properties C10–C12: fractions and chains -/

namespace Thpronun
open Spec

private def sylA (e : Int) : Syl := ⟨.KA, SC.NONE, VW.A, .NONE, .EK, [], e⟩
private def sylB (e : Int) : Syl := ⟨.MA, SC.NONE, VW.AA, .NONE, .SAMAN, [], e⟩

theorem fracBuilt_sorted {f l} (h : FracBuilt f l) : AltsSorted f.alts := by
  induction h with
  | empty => exact List.Pairwise.nil
  | addStr s _ ih => exact PronunFrac.insertAlt_sorted ih s
  | addFrac _ _ ih _ => rw [PronunFrac.addFrac_alts]; exact PronunFrac.foldl_sorted ih

/-- C10: however a fraction was built, each alternative is no greater than any later one. -/
theorem C10_sorted (f : PronunFrac) (l : List SylString) (h : FracBuilt f l) :
    f.alts.Pairwise fun a b => SylString.le a b = true := by
  refine (fracBuilt_sorted h).imp fun {a b} hab => ?_
  rw [SylString.le, SylString.gt_eq, hab]; rfl

/-- C11: up to `==` a fraction contains exactly the strings added to it. -/
theorem C11_contents (f : PronunFrac) (l : List SylString) (h : FracBuilt f l) (s : SylString) :
    (∃ a ∈ f.alts, SylString.eq a s = true) ↔ ∃ a ∈ l, SylString.eq a s = true := by
  induction h with
  | empty => simp
  | @addStr f l t _ ih =>
    simp only [List.mem_append, List.mem_singleton]
    constructor
    · rintro ⟨a, ha, he⟩
      rcases PronunFrac.mem_insertAlt ha with rfl | ha
      · exact ⟨a, .inr rfl, he⟩
      · obtain ⟨b, hb, h⟩ := ih.mp ⟨a, ha, he⟩
        exact ⟨b, .inl hb, h⟩
    · rintro ⟨a, ha | rfl, he⟩
      · obtain ⟨b, hb, h⟩ := ih.mpr ⟨a, ha, he⟩
        exact ⟨b, PronunFrac.mem_insertAlt_of_mem t hb, h⟩
      · obtain ⟨b, hb, h⟩ := PronunFrac.insertAlt_new f.alts a
        exact ⟨b, hb, SylString.eq_trans h he⟩
  | @addFrac f l g m _ _ ih _ =>
    rw [PronunFrac.addFrac_alts]
    simp only [List.mem_append]
    constructor
    · rintro ⟨a, ha, he⟩
      rcases PronunFrac.mem_foldl ha with ha | ha
      · obtain ⟨b, hb, h⟩ := ih.mp ⟨a, ha, he⟩
        exact ⟨b, .inl hb, h⟩
      · exact ⟨a, .inr ha, he⟩
    · rintro ⟨a, ha | ha, he⟩
      · obtain ⟨b, hb, h⟩ := ih.mpr ⟨a, ha, he⟩
        exact ⟨b, PronunFrac.mem_foldl_of_mem _ hb, h⟩
      · obtain ⟨b, hb, h⟩ := PronunFrac.foldl_new f.alts ha
        exact ⟨b, hb, SylString.eq_trans h he⟩

/-- Every alternative is (identically, end positions included) one of the strings added. -/
theorem C11_no_invention (f : PronunFrac) (l : List SylString) (h : FracBuilt f l) :
    ∀ a ∈ f.alts, a ∈ l := by
  induction h with
  | empty => simp
  | @addStr f l t _ ih =>
    intro a ha
    rcases PronunFrac.mem_insertAlt ha with rfl | ha
    · simp
    · simp [ih a ha]
  | @addFrac f l g m _ _ ih _ =>
    intro a ha
    rw [PronunFrac.addFrac_alts] at ha
    rcases PronunFrac.mem_foldl ha with ha | ha
    · simp [ih a ha]
    · simp [ha]

/-- The uniqueness half of C11 is false: strings that differ only in end positions are `==` but
strictly ordered, and the insertion keeps both. -/
theorem C11_unique_false : ∃ f l, FracBuilt f l ∧
    ∃ a b, f.alts = [a, b] ∧ SylString.eq a b = true :=
  ⟨_, _, .addStr [sylA 3] (.addStr [sylA 2] (.empty 3)), [sylA 2], [sylA 3], by decide, by decide⟩

/-- What holds instead: if among the added strings `==` ones are never strictly ordered (e.g. they
have the same end positions), no two alternatives are `==`.
(Missing: the general claim, which is false by `C11_unique_false`.) -/
theorem C11_unique_partial (f : PronunFrac) (l : List SylString) (h : FracBuilt f l)
    (hc : ∀ x ∈ l, ∀ y ∈ l, SylString.eq x y = true → SylString.lt x y = false) :
    f.alts.Pairwise fun a b => SylString.eq a b = false := by
  induction h with
  | empty => exact List.Pairwise.nil
  | @addStr f l t hf ih =>
    have hl : ∀ x ∈ f.alts, x ∈ l := C11_no_invention f l hf
    refine PronunFrac.insertAlt_unique (fracBuilt_sorted hf)
      (ih fun x hx y hy => hc x (by simp [hx]) y (by simp [hy])) t fun x hx he =>
      ⟨hc x (by simp [hl x hx]) t (by simp) he,
       hc t (by simp) x (by simp [hl x hx]) (SylString.eq_symm he)⟩
  | @addFrac f l g m hf hg ih _ =>
    have hl : ∀ x ∈ f.alts, x ∈ l := C11_no_invention f l hf
    rw [PronunFrac.addFrac_alts]
    refine PronunFrac.foldl_unique (fracBuilt_sorted hf)
      (ih fun x hx y hy => hc x (by simp [hx]) y (by simp [hy])) ?_
    have hm : ∀ x ∈ f.alts ++ g.alts, x ∈ l ++ g.alts := fun x hx => by
      rcases List.mem_append.mp hx with hx | hx
      · simp [hl x hx]
      · simp [hx]
    exact fun x hx y hy => hc x (hm x hx) y (hm y hy)

/-- Whatever was added, each alternative is strictly less than any later one; in particular no string, end positions
included, occurs twice. So alternatives that are `==` differ in end positions. -/
theorem C11_strict (f : PronunFrac) (l : List SylString) (h : FracBuilt f l) :
    f.alts.Pairwise fun a b => SylString.lt a b = true := by
  induction h with
  | empty => exact List.Pairwise.nil
  | @addStr f l t hf ih => exact PronunFrac.insertAlt_strict ih t
  | @addFrac f l g m hf hg ih _ =>
    rw [PronunFrac.addFrac_alts]
    exact PronunFrac.foldl_strict ih

theorem C11_nodup (f : PronunFrac) (l : List SylString) (h : FracBuilt f l) : f.alts.Nodup := by
  refine (C11_strict f l h).imp fun {a b} hab he => ?_
  subst he
  rw [SylString.lt_iff] at hab
  exact absurd hab (lt_irrefl _)

/-- What is kept of strings that are `==` depends on the order in which they were added. -/
theorem C11_order_false : ∃ f g l m, FracBuilt f l ∧ FracBuilt g m ∧ l.Perm m ∧ f.alts.length ≠ g.alts.length :=
  ⟨_, _, _, _, .addStr [sylA 3] (.addStr [sylA 2] (.empty 3)), .addStr [sylA 2] (.addStr [sylA 3] (.empty 3)),
    List.Perm.swap _ _ _, by decide⟩

/-- Adding in the order `B, A, B'` with `B' == B` at the same end position. -/
example : ∃ f, FracBuilt f [[sylB 3], [sylA 3], [sylB 3]] ∧ f.alts = [[sylA 3], [sylB 3]] ∧
    ∀ x ∈ [[sylB 3], [sylA 3], [sylB 3]], ∀ y ∈ [[sylB 3], [sylA 3], [sylB 3]],
      SylString.eq x y = true → SylString.lt x y = false :=
  ⟨_, .addStr [sylB 3] (.addStr [sylA 3] (.addStr [sylB 3] (.empty 3))), by decide, by decide⟩

/-- C12: merging singles keeps the list of readings of a chain. -/
theorem C12_chain (c : PronunChain) : expand (PronunChain.mergeSingles c) = expand c :=
  (expand_mergeSinglesAux c).1

/-- C12: afterwards no two adjacent fractions both have a single alternative. -/
theorem C12_chain_merged (c : PronunChain) (p : PronunChain) (f g : PronunFrac) (r : PronunChain)
    (h : PronunChain.mergeSingles c = p ++ f :: g :: r) :
    ¬ (f.altCount = 1 ∧ g.altCount = 1) :=
  (noAdj_mergeSinglesAux c).1 p f g r h

/-- C12: the same for lattices, chain by chain. -/
theorem C12_lattice (l : PronunLatt) :
    (PronunLatt.mergeSingles l).map expand = l.map expand ∧
    expandLatt (PronunLatt.mergeSingles l) = expandLatt l ∧
    ∀ c ∈ PronunLatt.mergeSingles l, ∀ p f g r, c = p ++ f :: g :: r →
      ¬ (f.altCount = 1 ∧ g.altCount = 1) := by
  have h1 : (PronunLatt.mergeSingles l).map expand = l.map expand := by
    simp [PronunLatt.mergeSingles, C12_chain]
  refine ⟨h1, ?_, ?_⟩
  · unfold expandLatt
    rw [List.flatMap_def, h1, ← List.flatMap_def]
  · intro c hc p f g r h
    obtain ⟨c', _, rfl⟩ := List.mem_map.mp hc
    exact C12_chain_merged c' p f g r h

example :
    let f (l) : PronunFrac := ⟨l, 0⟩
    let c := [f [[sylA 1]], f [[sylB 2]], f [[sylA 3], [sylB 3]], f [[sylB 4]], f [[sylA 5]], f [[sylA 6]]]
    PronunChain.mergeSingles c = [f [[sylA 1, sylB 2]], f [[sylA 3], [sylB 3]], f [[sylB 4, sylA 5, sylA 6]]] ∧
    (expand c).length = 2 := by decide

end Thpronun
