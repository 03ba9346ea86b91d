import Mathlib.Analysis.MeanInequalities
import Mathlib.Data.Fintype.BigOperators
import Mathlib.Data.Finset.Option
import Mathlib.Data.List.Dedup

/-! # Counting ascending lists: helper lemmas for C76 -/

namespace Thpronun

/-- The inequality of the means, for natural numbers. -/
theorem prod_le_of_sum {N D : Nat} (z : Fin N → Nat) (h : ∑ i, z i ≤ N * D) : ∏ i, z i ≤ D ^ N := by
  rcases Nat.eq_zero_or_pos N with rfl | hN
  · simp
  have hN' : (0 : ℝ) < N := by exact_mod_cast hN
  have h1 := Real.geom_mean_le_arith_mean Finset.univ (fun _ : Fin N => (1 : ℝ)) (fun i => (z i : ℝ)) (fun _ _ => zero_le_one)
    (by simpa using hN') fun i _ => Nat.cast_nonneg _
  simp only [Real.rpow_one, one_mul, Finset.sum_const, Finset.card_univ, Fintype.card_fin, nsmul_eq_mul, mul_one] at h1
  have h2 : (∑ i, (z i : ℝ)) / N ≤ D := by
    rw [div_le_iff₀ hN', mul_comm]
    exact_mod_cast h
  have h0 : (0 : ℝ) ≤ ∏ i, (z i : ℝ) := Finset.prod_nonneg fun i _ => Nat.cast_nonneg _
  have h3 := pow_le_pow_left₀ (Real.rpow_nonneg h0 _) (h1.trans h2) N
  rw [Real.rpow_inv_natCast_pow h0 hN.ne'] at h3
  exact_mod_cast h3

/-- Strictly ascending lists of members of `E` with values below `N`: at each value there is one of them or none. -/
theorem ascending_prod {α : Type} (r : α → Int) (N : Nat) (E : List α) (ps : List (List α)) (hn : ps.Nodup)
    (h : ∀ q ∈ ps, (∀ x ∈ q, x ∈ E ∧ 0 ≤ r x ∧ r x < N) ∧ q.Pairwise fun a b => r a < r b) {D : Nat} (hE : E.length ≤ N * D) :
    ps.length ≤ (D + 1) ^ N := by
  classical
  let pick (q : List α) (i : Fin N) : Option α := q.find? fun x => r x = (i : Nat)
  let cell (i : Fin N) : Finset α := E.toFinset.filter fun x => r x = (i : Nat)
  have hpick : ∀ q ∈ ps, ∀ x, ∀ hx : 0 ≤ r x ∧ r x < N, (pick q ⟨(r x).toNat, by omega⟩ = some x ↔ x ∈ q) := by
    intro q hq x hx
    have hr : r x = ((r x).toNat : Int) := by omega
    constructor
    · exact fun hp => List.mem_of_find?_eq_some hp
    · intro hm
      have hs : (pick q ⟨(r x).toNat, by omega⟩).isSome := by
        rw [List.find?_isSome]
        exact ⟨x, hm, by simpa using hr⟩
      obtain ⟨y, hy⟩ := Option.isSome_iff_exists.mp hs
      have hy1 : y ∈ q := List.mem_of_find?_eq_some hy
      have hy2 : r y = r x := by
        have := List.find?_some hy
        rw [hr]
        simpa using this
      rw [hy]
      congr 1
      by_contra hne
      have hp := (h q hq).2
      have hp : q.Pairwise fun a b => r a ≠ r b := hp.imp fun hab => hab.ne
      have : Std.Symm fun a b : α => r a ≠ r b := ⟨fun _ _ hab => hab.symm⟩
      exact hp.forall hy1 hm hne hy2
  have hinj : (ps.map pick).Nodup := by
    unfold List.Nodup
    rw [List.pairwise_map]
    refine hn.imp_of_mem ?_
    intro a b ha hb hab he
    apply hab
    have hnd : ∀ q ∈ ps, q.Nodup := fun q hq => (h q hq).2.imp fun {a b} hab he => by rw [he] at hab; exact lt_irrefl _ hab
    have hp : a.Perm b := by
      rw [List.perm_ext_iff_of_nodup (hnd a ha) (hnd b hb)]
      intro x
      constructor
      · intro hx
        have hx' := ((h a ha).1 x hx).2
        rw [← hpick b hb x hx', ← he, hpick a ha x hx']
        exact hx
      · intro hx
        have hx' := ((h b hb).1 x hx).2
        rw [← hpick a ha x hx', he, hpick b hb x hx']
        exact hx
    exact hp.eq_of_pairwise (fun x y _ _ h1 h2 => absurd (h1.trans h2) (lt_irrefl _)) (h a ha).2 (h b hb).2
  have hsub : (ps.map pick).toFinset ⊆ Fintype.piFinset fun i => Finset.insertNone (cell i) := by
    intro f hf
    rw [List.mem_toFinset, List.mem_map] at hf
    obtain ⟨q, hq, rfl⟩ := hf
    rw [Fintype.mem_piFinset]
    intro i
    rw [Finset.mem_insertNone]
    intro x hx
    rw [Finset.mem_filter, List.mem_toFinset]
    exact ⟨((h q hq).1 x (List.mem_of_find?_eq_some hx)).1, by simpa using List.find?_some hx⟩
  have h1 := Finset.card_le_card hsub
  rw [List.toFinset_card_of_nodup hinj, List.length_map, Fintype.card_piFinset] at h1
  refine h1.trans (prod_le_of_sum _ ?_)
  simp only [Finset.card_insertNone]
  rw [Finset.sum_add_distrib, Finset.sum_const, Finset.card_univ, Fintype.card_fin, smul_eq_mul, mul_one, Nat.mul_succ]
  refine Nat.add_le_add_right (le_trans ?_ hE) _
  rw [← Finset.card_biUnion]
  · refine (Finset.card_le_card (t := E.toFinset) ?_).trans (List.toFinset_card_le E)
    intro x hx
    obtain ⟨i, -, hi⟩ := Finset.mem_biUnion.mp hx
    exact (Finset.mem_filter.mp hi).1
  · intro i _ j _ hij
    rw [Function.onFun, Finset.disjoint_left]
    intro x hx hy
    have e1 := (Finset.mem_filter.mp hx).2
    have e2 := (Finset.mem_filter.mp hy).2
    exact hij (Fin.ext (by omega))

end Thpronun
