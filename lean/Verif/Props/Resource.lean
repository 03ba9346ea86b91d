import Verif.Lemmas.Resource

/-! # Nothing is freed twice and everything is freed: C61 -/

namespace Thpronun
open Res Spec DictPtr

/-! ## C61 -/

/-- Copying an opened `Dict` and destroying both frees the trie twice. -/
theorem C61_copy_false : ∃ h d, open_ Heap.empty null (some ⟨some [], []⟩) = .ok (h, d, some false) ∧
    (close h d >>= fun x => close x.1 (copy d)) = .ub := ⟨_, _, rfl, rfl⟩

/-- A negative size field makes `open` leave by an exception without closing the file. -/
theorem C61_leak_false : ∃ h, life Heap.empty [.open_ (some ⟨none, [255, 0, 0, 0]⟩)] = .ok h ∧ h.live ≠ [] :=
  ⟨_, rfl, by decide⟩

/-- For every sequence of operations on a `Dict` that is not copied, from construction to destruction: nothing is freed
that is not live, what was live before is live after, and the only handles left over are one for each `open` that ended
by an exception (the file). (Missing: copies; closing that file.) -/
theorem C61_partial (h : Heap) (L : List Nat) (ho : Owns h L) (ops : List Op) :
    ∃ h' extra, life h ops = .ok h' ∧ Owns h' (extra ++ L) ∧ extra.length = badOpens ops := by
  obtain ⟨h1, d1, x, e1, o1, l1⟩ := owns_run ops (d := null) (by simpa [handles, null] using ho)
  obtain ⟨h2, e2, o2⟩ := owns_close o1
  exact ⟨h2, x, by simp only [life, e1, ok_bind, e2, pure_eq], o2, l1⟩

/-- Likewise for a parser, which cannot be copied, and any number of loads. -/
theorem C61_parser (h : Heap) (L : List Nat) (ho : Owns h L) (fs : List (Option DictFile)) :
    ∃ h' extra, parserLife h fs = .ok h' ∧ Owns h' (extra ++ L) ∧ extra.length = fs.countP negSize := by
  obtain ⟨h1, p1, x, e1, o1, l1⟩ := owns_loads fs (p := none) (by simpa [ownedBy] using ho)
  obtain ⟨h2, e2, o2⟩ := owns_reset o1
  exact ⟨h2, x, by simp only [parserLife, e1, ok_bind, e2], o2, l1⟩

/-- The result of `open` on handles is that of `open` on contents. -/
theorem C61_same_result (h : Heap) (L : List Nat) (d : DictPtr) (ho : Owns h (handles d ++ L)) (d0 : Dict)
    (file : Option DictFile) :
    ∃ h' d' r, open_ h d file = .ok (h', d', r) ∧
      (match r with
       | none => Dict.open_ d0 file = .throw .badAlloc
       | some b => ∃ d1, Dict.open_ d0 file = .ok (d1, b) ∧ d'.mTrie.isSome = d1.mTrie.isSome ∧
          d'.mData.isSome = d1.mData.isSome) := by
  obtain ⟨h', d', r, -, e, -, -, -, h0, h1⟩ := owns_open ho file
  refine ⟨h', d', r, e, ?_⟩
  cases r with
  | none => exact h0 rfl d0
  | some b => exact h1 b rfl d0

example : Owns Heap.empty [] := ⟨List.nodup_nil, by simp [Heap.empty], List.Perm.refl _⟩

end Thpronun
