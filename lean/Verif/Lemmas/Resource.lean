import Verif.Spec.Resource
import Mathlib.Data.List.Perm.Basic
import Mathlib.Data.List.Nodup

/-! # Ownership of handles -/

namespace Thpronun
open Res
open scoped List

open Spec

theorem owns_perm {h : Heap} {L M : List Nat} (ho : Owns h L) (p : L.Perm M) : Owns h M := ⟨ho.1, ho.2.1, ho.2.2.trans p⟩

theorem owns_alloc {h : Heap} {L : List Nat} (ho : Owns h L) : Owns h.alloc.2 (h.alloc.1 :: L) := by
  obtain ⟨h1, h2, h3⟩ := ho
  refine ⟨List.nodup_cons.mpr ⟨fun hx => Nat.lt_irrefl _ (h2 _ hx), h1⟩, ?_, h3.cons _⟩
  intro x hx
  rcases List.mem_cons.mp hx with rfl | hx
  · exact Nat.lt_succ_self _
  · exact Nat.lt_succ_of_lt (h2 x hx)

theorem owns_free {h : Heap} {x : Nat} {L : List Nat} (ho : Owns h (x :: L)) : ∃ h', h.free x = .ok h' ∧ Owns h' L := by
  obtain ⟨h1, h2, h3⟩ := ho
  have hx : x ∈ h.live := h3.mem_iff.mpr (by simp)
  refine ⟨⟨h.live.erase x, h.next⟩, by rw [Heap.free, if_pos hx], h1.erase _, fun y hy => h2 y (List.mem_of_mem_erase hy), ?_⟩
  have := h3.erase x
  simpa using this

theorem owns_freeOpt {h : Heap} {o : Option Nat} {L : List Nat} (ho : Owns h (o.toList ++ L)) :
    ∃ h', DictPtr.freeOpt h o = .ok h' ∧ Owns h' L := by
  cases o with
  | none => exact ⟨h, rfl, by simpa using ho⟩
  | some x => exact owns_free (by simpa using ho)

theorem owns_close {h : Heap} {d : DictPtr} {L : List Nat} (ho : Owns h (handles d ++ L)) :
    ∃ h', DictPtr.close h d = .ok (h', DictPtr.null) ∧ Owns h' L := by
  unfold handles at ho
  rw [List.append_assoc] at ho
  obtain ⟨h1, e1, o1⟩ := owns_freeOpt ho
  obtain ⟨h2, e2, o2⟩ := owns_freeOpt o1
  exact ⟨h2, by simp only [DictPtr.close, e1, ok_bind, e2, pure_eq], o2⟩

theorem owns_bank {h : Heap} {L : List Nat} (ho : Owns h L) (t : Option Trie) (input : Str) :
    ∃ h' r, DictPtr.readDataBank h input = .ok (h', r) ∧ Owns h' ((r.getD none).toList ++ L) ∧
      (r = none ↔ negSize (some ⟨t, input⟩) = true) ∧ (r = none → Dict.readDataBank input = .throw .badAlloc) ∧
      (∀ x, r = some x → ∃ y, Dict.readDataBank input = .ok y ∧ x.isSome = y.isSome) := by
  unfold DictPtr.readDataBank negSize Dict.readDataBank
  cases hi : Dict.readInt32 input with
  | none => exact ⟨h, some none, rfl, by simpa using ho, by simp [hi], by simp, by simp⟩
  | some q =>
    obtain ⟨n, r⟩ := q
    simp only
    by_cases hn : n < 0
    · exact ⟨h, none, by rw [if_pos hn], by simpa using ho, by simp [hi, hn], by simp [hi, hn], by simp⟩
    · rw [if_neg hn, if_neg hn]
      have ha := owns_alloc ho
      by_cases hc : n.toNat = 0 ∨ r.length < n.toNat
      · obtain ⟨h', e, o⟩ := owns_free ha
        have hd : (if n.toNat = 0 then (.ok none : Res (Option Str)) else if r.length < n.toNat then .ok none
            else .ok (some (r.take n.toNat))) = .ok none := by
          rcases hc with hc | hc
          · rw [if_pos hc]
          · rw [if_pos hc, ite_self]
        refine ⟨h', some none, ?_, by simpa using o, by simp [hi, hn], by simp, fun x hx => ⟨none, hd, by cases hx; rfl⟩⟩
        rw [if_pos hc, e, ok_bind, pure_eq]
      · have hc' := not_or.mp hc
        refine ⟨_, some (some h.alloc.1), by rw [if_neg hc], by simpa using ha, by simp [hi, hn], by simp, fun x hx => ?_⟩
        rw [if_neg hc'.1, if_neg hc'.2]
        exact ⟨_, rfl, by cases hx; rfl⟩

theorem owns_open {h : Heap} {d : DictPtr} {L : List Nat} (ho : Owns h (handles d ++ L)) (file : Option DictFile) :
    ∃ h' d' r extra, DictPtr.open_ h d file = .ok (h', d', r) ∧ Owns h' (handles d' ++ extra ++ L) ∧
      extra.length = (if negSize file then 1 else 0) ∧ (r = none ↔ negSize file = true) ∧
      (r = none → ∀ d0, Dict.open_ d0 file = .throw .badAlloc) ∧
      (∀ b, r = some b → ∀ d0, ∃ d1, Dict.open_ d0 file = .ok (d1, b) ∧ d'.mTrie.isSome = d1.mTrie.isSome ∧
        d'.mData.isSome = d1.mData.isSome) := by
  obtain ⟨h0, e0, o0⟩ := owns_close ho
  unfold DictPtr.open_
  rw [e0]
  simp only [ok_bind]
  cases file with
  | none => exact ⟨h0, _, _, [], rfl, by simpa [handles, DictPtr.null] using o0, rfl, by simp [negSize], by simp,
      fun b hb d0 => ⟨_, by cases hb; rfl, rfl, rfl⟩⟩
  | some f =>
    simp only
    obtain ⟨trie, rest⟩ := f
    have o1 := owns_alloc o0
    obtain ⟨tr, h2, e2, o2, htr⟩ : ∃ tr h2, DictPtr.trieRead h0.alloc.2 trie = (tr, h2) ∧
        Owns h2 (tr.toList ++ h0.alloc.1 :: L) ∧ tr.isSome = trie.isSome := by
      cases trie with
      | none => exact ⟨_, _, rfl, by simpa using o1, rfl⟩
      | some t => exact ⟨_, _, rfl, by simpa using owns_alloc o1, rfl⟩
    obtain ⟨h3, r, e3, o3, hr, hr0, hr1⟩ := owns_bank o2 trie rest
    rw [e2]
    simp only [e3, ok_bind]
    cases r with
    | none =>
      have hneg := hr.mp rfl
      refine ⟨h3, _, _, [h0.alloc.1], rfl, ?_, by rw [if_pos hneg]; rfl, by simp [hneg],
        fun _ d0 => by simp only [Dict.open_, hr0 rfl]; rfl, by simp⟩
      refine owns_perm o3 ?_
      simp [handles]
    | some data =>
      have hneg : negSize (some ⟨trie, rest⟩) = false := by
        cases hb : negSize (some ⟨trie, rest⟩) with
        | false => rfl
        | true => cases hr.mpr hb
      have o4 : Owns h3 (h0.alloc.1 :: (tr.toList ++ data.toList ++ L)) := by
        refine owns_perm o3 ?_
        simp only [Option.getD_some]
        calc data.toList ++ (tr.toList ++ h0.alloc.1 :: L)
            _ ~ data.toList ++ (h0.alloc.1 :: (tr.toList ++ L)) := List.Perm.append_left _ List.perm_middle
            _ ~ h0.alloc.1 :: (data.toList ++ (tr.toList ++ L)) := List.perm_middle
            _ ~ h0.alloc.1 :: (tr.toList ++ data.toList ++ L) := by
              refine List.Perm.cons _ ?_
              rw [← List.append_assoc]
              exact List.Perm.append_right _ List.perm_append_comm
      obtain ⟨h4, e4, o5⟩ := owns_free o4
      refine ⟨h4, ⟨tr, data⟩, some (tr.isSome && data.isSome), [], ?_, by simpa [handles] using o5, by simp [hneg], by simp [hneg],
        by simp, fun b hb d0 => ?_⟩
      · simp only [e4, ok_bind, pure_eq]
      · obtain ⟨y, hy, hxy⟩ := hr1 data rfl
        cases hb
        refine ⟨⟨trie, y⟩, ?_, htr, hxy⟩
        simp only [Dict.open_, hy, ok_bind, pure_eq, htr, hxy]

theorem owns_run (ops : List DictPtr.Op) {h : Heap} {d : DictPtr} {L : List Nat} (ho : Owns h (handles d ++ L)) :
    ∃ h' d' extra, DictPtr.run h d ops = .ok (h', d') ∧ Owns h' (handles d' ++ (extra ++ L)) ∧
      extra.length = badOpens ops := by
  induction ops generalizing h d L with
  | nil => exact ⟨h, d, [], rfl, ho, rfl⟩
  | cons o ops ih =>
    cases o with
    | close =>
      obtain ⟨h1, e1, o1⟩ := owns_close ho
      obtain ⟨h2, d2, x, e2, o2, l2⟩ := ih (h := h1) (d := DictPtr.null) (L := L) (by simpa [handles, DictPtr.null] using o1)
      refine ⟨h2, d2, x, by simp only [DictPtr.run, e1, ok_bind, e2], o2, ?_⟩
      rw [l2]
      simp [badOpens]
    | open_ f =>
      obtain ⟨h1, d1, r, y, e1, o1, l1, -, -, -⟩ := owns_open ho f
      rw [List.append_assoc] at o1
      obtain ⟨h2, d2, x, e2, o2, l2⟩ := ih o1
      refine ⟨h2, d2, x ++ y, by simp only [DictPtr.run, e1, ok_bind, e2], by simpa using o2, ?_⟩
      rw [List.length_append, l2, l1]
      simp only [badOpens, List.countP_cons]

/-- What a parser owns. -/
def ownedBy : Option (Nat × DictPtr) → List Nat
  | none => []
  | some (y, d) => y :: handles d

theorem owns_reset {h : Heap} {p : Option (Nat × DictPtr)} {L : List Nat} (ho : Owns h (ownedBy p ++ L)) :
    ∃ h', resetPtr h p = .ok h' ∧ Owns h' L := by
  cases p with
  | none => exact ⟨h, rfl, by simpa [ownedBy] using ho⟩
  | some q =>
    obtain ⟨y, d⟩ := q
    have o1 : Owns h (handles d ++ y :: L) := owns_perm ho List.perm_middle.symm
    obtain ⟨h2, e2, o2⟩ := owns_close o1
    obtain ⟨h3, e3, o3⟩ := owns_free o2
    exact ⟨h3, by simp only [resetPtr, e2, ok_bind, e3], o3⟩

theorem owns_loads (fs : List (Option DictFile)) {h : Heap} {p : Option (Nat × DictPtr)} {L : List Nat}
    (ho : Owns h (ownedBy p ++ L)) :
    ∃ h' p' extra, loadsPtr h p fs = .ok (h', p') ∧ Owns h' (ownedBy p' ++ (extra ++ L)) ∧
      extra.length = fs.countP negSize := by
  induction fs generalizing h p L with
  | nil => exact ⟨h, p, [], rfl, ho, rfl⟩
  | cons f fs ih =>
    obtain ⟨h1, e1, o1⟩ := owns_reset (owns_perm (owns_alloc ho) List.perm_middle.symm)
    obtain ⟨h2, d2, r, y, e2, o2, l2, -, -, -⟩ := owns_open (d := DictPtr.null) (by simpa [handles, DictPtr.null] using o1) f
    have o2' : Owns h2 (ownedBy (some (h.alloc.1, d2)) ++ (y ++ L)) := by
      refine owns_perm o2 ?_
      simp only [ownedBy, List.cons_append]
      calc handles d2 ++ y ++ h.alloc.1 :: L
          _ ~ h.alloc.1 :: (handles d2 ++ y ++ L) := List.perm_middle
          _ = h.alloc.1 :: (handles d2 ++ (y ++ L)) := by rw [List.append_assoc]
    obtain ⟨h3, p3, x, e3, o3, l3⟩ := ih o2'
    refine ⟨h3, p3, x ++ y, ?_, by simpa using o3, ?_⟩
    · simp only [loadsPtr, loadPtr]
      rw [e1]
      simp only [ok_bind, e2, pure_eq, e3]
    · rw [List.length_append, l3, l2, List.countP_cons]

end Thpronun
