import Verif.Spec.Lattice
import Verif.Lemmas.Dag

/-! # Fractions and chains: helper lemmas -/

namespace Thpronun
open Spec

/-- Non-descending order of strings. -/
def AltsSorted (l : List SylString) : Prop := l.Pairwise fun a b => SylString.lt b a = false

theorem lt_false_trans {a b c : SylString} (h1 : SylString.lt b a = false)
    (h2 : SylString.lt c b = false) : SylString.lt c a = false := by
  rw [← Bool.not_eq_true, SylString.lt_iff] at *
  exact not_lt.mpr (le_trans (not_lt.mp h1) (not_lt.mp h2))

theorem lt_false_of_lt {a b : SylString} (h : SylString.lt a b = true) :
    SylString.lt b a = false := by
  rw [← Bool.not_eq_true, SylString.lt_iff] at *
  exact not_lt.mpr (le_of_lt h)

namespace PronunFrac

theorem mem_insertAlt {l : List SylString} {s x : SylString} (h : x ∈ insertAlt l s) :
    x = s ∨ x ∈ l := by
  induction l with
  | nil => simpa [insertAlt] using h
  | cons a l ih =>
    rw [insertAlt] at h
    split at h
    · rcases List.mem_cons.mp h with rfl | h
      · simp
      · rcases ih h with h | h <;> simp [h]
    · split at h
      · simpa using h
      · right; exact h

theorem mem_insertAlt_of_mem {l : List SylString} (s : SylString) {x : SylString} (h : x ∈ l) :
    x ∈ insertAlt l s := by
  induction l with
  | nil => simp at h
  | cons a l ih =>
    rw [insertAlt]
    split
    · rcases List.mem_cons.mp h with rfl | h
      · simp
      · simp [ih h]
    · split
      · simp [List.mem_cons.mp h]
      · exact h

theorem insertAlt_new (l : List SylString) (s : SylString) :
    ∃ x ∈ insertAlt l s, SylString.eq x s = true := by
  induction l with
  | nil => exact ⟨s, by simp [insertAlt], SylString.eq_refl s⟩
  | cons a l ih =>
    rw [insertAlt]
    split
    · obtain ⟨x, hx, h⟩ := ih
      exact ⟨x, by simp [hx], h⟩
    · split
      · exact ⟨s, by simp, SylString.eq_refl s⟩
      · rename_i h
        exact ⟨a, by simp, by simpa [SylString.ne] using h⟩

theorem insertAlt_sorted {l : List SylString} (h : AltsSorted l) (s : SylString) :
    AltsSorted (insertAlt l s) := by
  induction l with
  | nil => simp [insertAlt, AltsSorted]
  | cons a l ih =>
    have hp := List.pairwise_cons.mp h
    rw [insertAlt]
    split
    · rename_i hlt
      refine List.pairwise_cons.mpr ⟨fun b hb => ?_, ih hp.2⟩
      rcases mem_insertAlt hb with rfl | hb
      · exact lt_false_of_lt hlt
      · exact hp.1 b hb
    · rename_i hlt
      split
      · refine List.pairwise_cons.mpr ⟨fun b hb => ?_, h⟩
        rcases List.mem_cons.mp hb with rfl | hb
        · exact Bool.eq_false_iff.mpr hlt
        · exact lt_false_trans (Bool.eq_false_iff.mpr hlt) (hp.1 b hb)
      · exact h

theorem insertAlt_strict {l : List SylString} (h : l.Pairwise fun a b => SylString.lt a b = true) (s : SylString) :
    (insertAlt l s).Pairwise fun a b => SylString.lt a b = true := by
  induction l with
  | nil => simp [insertAlt]
  | cons a l ih =>
    have hp := List.pairwise_cons.mp h
    rw [insertAlt]
    split
    · rename_i hlt
      refine List.pairwise_cons.mpr ⟨fun b hb => ?_, ih hp.2⟩
      rcases mem_insertAlt hb with rfl | hb
      · exact hlt
      · exact hp.1 b hb
    · rename_i hlt
      split
      · rename_i hne
        have hsa : SylString.lt s a = true := by
          rw [SylString.lt_iff] at hlt ⊢
          refine lt_of_le_of_ne (not_lt.mp hlt) fun he => ?_
          have : SylString.eq a s = true := by
            rw [SylString.eq_iff]
            have key : ∀ x y : SylString, x.map Syl.key = y.map Syl.key → List.Forall₂ (fun x y => Syl.eq x y = true) y x := by
              intro x
              induction x with
              | nil => intro y h; cases y with
                | nil => exact .nil
                | cons b y => cases h
              | cons a x ih => intro y h; cases y with
                | nil => cases h
                | cons b y =>
                  rw [List.map_cons, List.map_cons, List.cons.injEq] at h
                  exact .cons ((Syl.key_eq_iff b a).mp h.1.symm).1 (ih y h.2)
            exact key s a he
          simp [SylString.ne, this] at hne
        refine List.pairwise_cons.mpr ⟨fun b hb => ?_, h⟩
        rcases List.mem_cons.mp hb with rfl | hb
        · exact hsa
        · have := hp.1 b hb
          rw [SylString.lt_iff] at this hsa ⊢
          exact hsa.trans this
      · exact h

theorem foldl_strict {l m : List SylString} (h : l.Pairwise fun a b => SylString.lt a b = true) :
    (m.foldl insertAlt l).Pairwise fun a b => SylString.lt a b = true := by
  induction m generalizing l with
  | nil => exact h
  | cons a m ih => exact ih (insertAlt_strict h a)

/-- Uniqueness is kept when the new string is not strictly ordered against equal ones. -/
theorem insertAlt_unique {l : List SylString} (hs : AltsSorted l)
    (hu : l.Pairwise fun a b => SylString.eq a b = false) (s : SylString)
    (hc : ∀ x ∈ l, SylString.eq x s = true → SylString.lt x s = false ∧ SylString.lt s x = false) :
    (insertAlt l s).Pairwise fun a b => SylString.eq a b = false := by
  induction l with
  | nil => simp [insertAlt]
  | cons a l ih =>
    have hp := List.pairwise_cons.mp hu
    have hps := List.pairwise_cons.mp hs
    rw [insertAlt]
    split
    · rename_i hlt
      refine List.pairwise_cons.mpr ⟨fun b hb => ?_, ih hps.2 hp.2 fun x hx => hc x (by simp [hx])⟩
      rcases mem_insertAlt hb with rfl | hb
      · rw [← Bool.not_eq_true]
        intro he
        rw [(hc a (by simp) he).1] at hlt
        exact absurd hlt (by simp)
      · exact hp.1 b hb
    · rename_i hlt
      split
      · rename_i hne
        have hne' : SylString.eq a s = false := by simpa [SylString.ne] using hne
        refine List.pairwise_cons.mpr ⟨fun b hb => ?_, hu⟩
        rw [← Bool.not_eq_true]
        intro he
        have he' := SylString.eq_symm he
        rcases List.mem_cons.mp hb with rfl | hb'
        · rw [he'] at hne'; exact absurd hne' (by simp)
        · -- a ≤ b and ¬ a < s, b indistinguishable from s, so a is too
          obtain ⟨h1, h2⟩ := hc b hb he'
          have hab := hps.1 b hb'
          have hsa : SylString.lt s a = false := lt_false_trans hab h2
          have has : SylString.lt a s = false := Bool.eq_false_iff.mpr hlt
          have key : a.map Syl.key = s.map Syl.key := by
            rw [← Bool.not_eq_true, SylString.lt_iff, not_lt] at hsa has
            exact le_antisymm hsa has
          have : SylString.eq a s = true := by
            rw [SylString.eq_iff]
            have hf : List.Forall₂ (fun x y : Syl => x.key = y.key) a s := by
              clear * - key
              induction a generalizing s with
              | nil => cases s <;> simp_all
              | cons x xs ih =>
                cases s with
                | nil => simp at key
                | cons y ys => simp only [List.map_cons, List.cons.injEq] at key; exact .cons key.1 (ih _ key.2)
            exact hf.imp fun x y h => ((Syl.key_eq_iff x y).mp h).1
          rw [this] at hne'; exact absurd hne' (by simp)
      · exact hu

theorem addFrac_alts (f g : PronunFrac) : (f.addFrac g).alts = g.alts.foldl insertAlt f.alts := by
  unfold addFrac
  generalize g.alts = l
  induction l generalizing f with
  | nil => rfl
  | cons a l ih => rw [List.foldl_cons, List.foldl_cons, ih]; rfl

theorem foldl_sorted {l m : List SylString} (h : AltsSorted l) : AltsSorted (m.foldl insertAlt l) := by
  induction m generalizing l with
  | nil => exact h
  | cons a m ih => exact ih (insertAlt_sorted h a)

theorem mem_foldl {l m : List SylString} {x : SylString} (h : x ∈ m.foldl insertAlt l) :
    x ∈ l ∨ x ∈ m := by
  induction m generalizing l with
  | nil => exact .inl h
  | cons a m ih =>
    rcases ih h with h | h
    · rcases mem_insertAlt h with rfl | h
      · simp
      · exact .inl h
    · simp [h]

theorem mem_foldl_of_mem {l : List SylString} (m : List SylString) {x : SylString} (h : x ∈ l) :
    x ∈ m.foldl insertAlt l := by
  induction m generalizing l with
  | nil => exact h
  | cons a m ih => exact ih (mem_insertAlt_of_mem a h)

theorem foldl_new (l : List SylString) {m : List SylString} {x : SylString} (h : x ∈ m) :
    ∃ y ∈ m.foldl insertAlt l, SylString.eq y x = true := by
  induction m generalizing l with
  | nil => simp at h
  | cons a m ih =>
    rcases List.mem_cons.mp h with rfl | h
    · obtain ⟨y, hy, he⟩ := insertAlt_new l x
      exact ⟨y, mem_foldl_of_mem m hy, he⟩
    · exact ih _ h

theorem foldl_unique {l m : List SylString} (hs : AltsSorted l)
    (hu : l.Pairwise fun a b => SylString.eq a b = false)
    (hc : ∀ x ∈ l ++ m, ∀ y ∈ l ++ m, SylString.eq x y = true →
      SylString.lt x y = false) :
    (m.foldl insertAlt l).Pairwise fun a b => SylString.eq a b = false := by
  induction m generalizing l with
  | nil => exact hu
  | cons a m ih =>
    refine ih (insertAlt_sorted hs a) (insertAlt_unique hs hu a fun x hx he =>
      ⟨hc x (by simp [hx]) a (by simp) he, hc a (by simp) x (by simp [hx]) (SylString.eq_symm he)⟩) ?_
    have hm : ∀ x ∈ insertAlt l a ++ m, x ∈ l ++ a :: m := fun x hx => by
      rcases List.mem_append.mp hx with hx | hx
      · rcases mem_insertAlt hx with rfl | hx <;> simp_all
      · simp [hx]
    exact fun x hx y hy => hc x (hm x hx) y (hm y hy)

end PronunFrac

/-! ## Merging singles in a chain -/

theorem expand_appendFirst (f g : PronunFrac) (hf : f.altCount = 1) (hg : g.altCount = 1)
    (r : PronunChain) : expand (f.appendFirst g :: r) = expand (f :: g :: r) := by
  obtain ⟨fa, fe⟩ := f
  obtain ⟨ga, ge⟩ := g
  unfold PronunFrac.altCount at hf hg
  match fa, hf, ga, hg with
  | [a], _, [b], _ => simp [PronunFrac.appendFirst, expand, List.append_assoc]

theorem altCount_appendFirst (f g : PronunFrac) : (f.appendFirst g).altCount = f.altCount := by
  unfold PronunFrac.appendFirst PronunFrac.altCount
  split
  · rename_i h _; rw [h]; simp
  · rfl

theorem expand_cons_congr (f : PronunFrac) {r r' : PronunChain} (h : expand r = expand r') :
    expand (f :: r) = expand (f :: r') := by simp [expand, h]

theorem expand_mergeSinglesAux (c : PronunChain) :
    expand (mergeSinglesAux none c) = expand c ∧
    ∀ f, f.altCount = 1 → expand (mergeSinglesAux (some f) c) = expand (f :: c) := by
  induction c with
  | nil => exact ⟨rfl, fun f _ => rfl⟩
  | cons g r ih =>
    constructor
    · unfold mergeSinglesAux
      split
      · rename_i hg; exact ih.2 g hg
      · exact expand_cons_congr g ih.1
    · intro f hf
      unfold mergeSinglesAux
      split
      · rename_i hg
        rw [ih.2 _ (by rw [altCount_appendFirst]; exact hf), expand_appendFirst f g hf hg]
      · exact expand_cons_congr f (expand_cons_congr g ih.1)

/-- No two adjacent fractions both have one alternative. -/
def NoAdjSingles (c : PronunChain) : Prop :=
  ∀ p f g r, c = p ++ f :: g :: r → ¬ (f.altCount = 1 ∧ g.altCount = 1)

theorem NoAdjSingles.cons {f : PronunFrac} {c : PronunChain} (h : NoAdjSingles c)
    (hf : ∀ g ∈ c.head?, ¬ (f.altCount = 1 ∧ g.altCount = 1)) : NoAdjSingles (f :: c) := by
  intro p x y r he
  cases p with
  | nil =>
    simp only [List.nil_append, List.cons.injEq] at he
    obtain ⟨rfl, rfl⟩ := he
    exact hf y rfl
  | cons a p =>
    simp only [List.cons_append, List.cons.injEq] at he
    exact h p x y r he.2

theorem noAdj_mergeSinglesAux (c : PronunChain) :
    NoAdjSingles (mergeSinglesAux none c) ∧
    ∀ f, f.altCount = 1 → NoAdjSingles (mergeSinglesAux (some f) c) := by
  induction c with
  | nil =>
    refine ⟨fun p f g r h => by simp [mergeSinglesAux] at h, fun f _ p x y r h => ?_⟩
    have := congrArg List.length h
    simp [mergeSinglesAux] at this
    omega
  | cons g r ih =>
    constructor
    · unfold mergeSinglesAux
      split
      · rename_i hg; exact ih.2 g hg
      · rename_i hg; exact ih.1.cons fun _ _ h => hg h.1
    · intro f hf
      unfold mergeSinglesAux
      split
      · exact ih.2 _ (by rw [altCount_appendFirst]; exact hf)
      · rename_i hg
        refine NoAdjSingles.cons (ih.1.cons fun _ _ h => hg h.1) ?_
        intro x hx h
        simp at hx; subst hx
        exact hg h.2

end Thpronun
