import Verif.Lemmas.Heard

/-! # Checking that the readings of a dictionary are written -/

namespace Thpronun.Heard
open Res Spec DAG

/-- The place of an end position. -/
def placeB (w : U16Str) (n : Int) : Option Nat :=
  if 0 ≤ n then some n.toNat
  else
    let p := (-n).toNat / 101
    let q := (-n).toNat - 100 * p
    if p < q ∧ q ≤ p + 40 ∧ p < w.length ∧ 100 * p ≤ (-n).toNat then some (firstCons w p + 1) else none

theorem placeB_sound {w : U16Str} {n : Int} {a : Nat} (h : placeB w n = some a) : PlaceOf w n a := by
  unfold placeB at h
  split at h
  · cases h
    exact .inl (by omega)
  · dsimp only at h
    split at h
    · rename_i hn hc
      cases h
      obtain ⟨h1, h2, h3, h4⟩ := hc
      refine .inr ⟨(-n).toNat / 101, (-n).toNat - 100 * ((-n).toNat / 101), ?_, h1, h2, h3, rfl⟩
      unfold spanPos
      generalize (-n).toNat / 101 = p at h4 ⊢
      omega
    · cases h

def heardB (X : List (Nat × InitConsSound)) (c : Nat) (snd : InitConsSound) : Bool :=
  decide (c ∈ soundLetters snd) || decide (c = ch!"ฤ" ∧ snd = .RA) || decide ((c, snd) ∈ X)

def finalB (w : U16Str) (i k b : Nat) (f : EndConsClass) : Bool :=
  decide (f = .NONE) ||
  ((List.range (b + 1)).any fun j => decide (k ≤ j) && (w[j]?).any fun c => decide (c ∈ finalLetters f ∧ f ≠ .NONE)) ||
  (decide (f = .KOM) && (List.range b).any fun j => decide (k ≤ j) && decide (w[j]? = some ch!"ำ")) ||
  (decide (f = .KOEW) && decide (0 < i ∧ w[i - 1]? = some ch!"เ" ∨ 1 < i ∧ w[i - 2]? = some ch!"เ") &&
    (List.range b).any fun j => decide (k ≤ j) && decide (w[j]? = some ch!"า")) ||
  (decide (f = .KOEY) && decide (0 < i ∧ (w[i - 1]? = some ch!"ไ" ∨ w[i - 1]? = some ch!"ใ")))

theorem finalB_sound {w : U16Str} {i k b : Nat} {f : EndConsClass} (h : finalB w i k b f = true) : FinalBy w i k b f := by
  simp only [finalB, Bool.or_eq_true, Bool.and_eq_true, decide_eq_true_eq, List.any_eq_true, List.mem_range,
    Option.any_eq_true] at h
  rcases h with (((h | ⟨j, h1, h2, c, h3, h4, h5⟩) | ⟨e, j, h1, h2, h3⟩) | ⟨⟨e, h0⟩, j, h1, h2, h3⟩) | ⟨e, h0, h1⟩
  · exact .inl h
  · exact .inr (.inl ⟨j, c, h2, by omega, h3, h4, h5⟩)
  · exact .inr (.inr (.inl ⟨e, j, h2, h1, h3⟩))
  · refine .inr (.inr (.inr (.inl ⟨e, ?_, j, h2, h1, h3⟩)))
    rcases h0 with ⟨h4, h5⟩ | ⟨h4, h5⟩
    · exact ⟨i - 1, by omega, h5⟩
    · exact ⟨i - 2, by omega, h5⟩
  · have h2 : i - 1 + 1 = i ∨ i - 1 + 2 = i := by omega
    exact .inr (.inr (.inr (.inr ⟨e, h1.imp (fun h => ⟨i - 1, h2, h⟩) fun h => ⟨i - 1, h2, h⟩⟩)))

def writtenB (X : List (Nat × InitConsSound)) (w : U16Str) (a b : Nat) (x : Syl) : Bool :=
  decide (x.literal = []) && (List.range b).any fun i => decide (a ≤ i) && (w[i]?).any (heardB X · x.iCons1) &&
    if x.iCons2 = SC.NONE then decide (i + 1 ≤ b) && finalB w i (i + 1) b x.eCons
    else decide (i + 2 ≤ b) && (secondLetters.any fun e => decide (e.1 = x.iCons2) && (w[i + 1]?).any fun c => decide (c ∈ e.2)) &&
      finalB w i (i + 2) b x.eCons

theorem writtenB_sound {X : List (Nat × InitConsSound)} {w : U16Str} {a b : Nat} {x : Syl} (h : writtenB X w a b x = true) :
    WrittenIn X w a b x := by
  simp only [writtenB, Bool.and_eq_true, decide_eq_true_eq, List.any_eq_true, List.mem_range, Option.any_eq_true] at h
  obtain ⟨h0, i, h1, ⟨h2, c, h3, h4⟩, h5⟩ := h
  have h4' : Heard X c x.iCons1 := by
    simp only [heardB, Bool.or_eq_true, decide_eq_true_eq] at h4
    rcases h4 with (h4 | h4) | h4
    · exact .inl h4
    · exact .inr (.inl h4)
    · exact .inr (.inr (.inr h4))
  split at h5
  · rename_i h6
    simp only [Bool.and_eq_true, decide_eq_true_eq] at h5
    exact .inr ⟨h0, i, i + 1, c, h2, h3, h4', .inl ⟨h6, rfl⟩, h5.1, finalB_sound h5.2⟩
  · simp only [Bool.and_eq_true, decide_eq_true_eq, List.any_eq_true, Option.any_eq_true] at h5
    obtain ⟨⟨h6, ⟨s, cs⟩, h7, h8, d, h9, h10⟩, h11⟩ := h5
    dsimp only at h8 h10
    subst h8
    exact .inr ⟨h0, i, i + 2, c, h2, h3, h4', .inr ⟨rfl, d, cs, h9, h7, h10⟩, h6, finalB_sound h11⟩

def entryB (X : List (Nat × InitConsSound)) (v : U16Str) (str : SylString) : Bool :=
  (wordEdges 0 0 str).all fun e =>
    (placeB v e.key).any fun a => (placeB v e.target).any fun b => writtenB X v a b e.val

theorem entryB_sound {X : List (Nat × InitConsSound)} {v : U16Str} {str : SylString} (h : entryB X v str = true) :
    EntryWritten X v str := by
  intro e he
  have := List.all_eq_true.mp h e he
  simp only [Option.any_eq_true] at this
  obtain ⟨a, h1, b, h2, h3⟩ := this
  exact ⟨a, b, placeB_sound h1, placeB_sound h2, writtenB_sound h3⟩

/-! ## The order of the letters -/

variable {X : List (Nat × InitConsSound)} {w : U16Str}

theorem piece_sublist {a b i k : Nat} (h1 : a ≤ i) (h2 : k ≤ b) : (piece w i k).Sublist (piece w a b) := by
  have e : piece w i k = (piece w a k).drop (i - a) := by
    unfold piece
    rw [List.drop_take, List.drop_drop, show a + (i - a) = i by omega, show k - a - (i - a) = k - i by omega]
  rw [e]
  refine (List.drop_sublist _ _).trans ?_
  unfold piece
  exact (List.take_prefix_take_left (by omega)).sublist

theorem piece_cons {i c : Nat} (h : w[i]? = some c) (k : Nat) : piece w i (i + 1 + k) = c :: piece w (i + 1) (i + 1 + k) := by
  unfold piece
  obtain ⟨hl, rfl⟩ := List.getElem?_eq_some_iff.mp h
  rw [List.drop_eq_getElem_cons hl, show i + 1 + k - i = k + 1 by omega, List.take_succ_cons, Nat.add_sub_cancel_left]

theorem piece_nil {i : Nat} : piece w i i = [] := by simp [piece]

theorem piece_all : ∀ (l : U16Str) (i : Nat), (∀ (j : Nat) c, l[j]? = some c → w[i + j]? = some c) → piece w i (i + l.length) = l
  | [], i, _ => by simp [piece]
  | a :: l, i, h => by
    have h0 : w[i]? = some a := h 0 a rfl
    rw [List.length_cons, Nat.add_comm l.length, ← Nat.add_assoc, piece_cons h0, piece_all l (i + 1) fun j c hc => ?_]
    rw [Nat.add_assoc, Nat.add_comm 1]
    exact h (j + 1) c hc

theorem onset_written {a b : Nat} {x : Syl} (h : WrittenIn X w a b x) :
    a ≤ b ∧ ∃ l, List.Forall₂ (HeardAs X) (onsetOf x) l ∧ l.Sublist (piece w a b) := by
  rcases h with ⟨h0, i, h1, h2, h3⟩ | ⟨h0, i, k, c, h1, h2, h3, h4, h5, -⟩
  · refine ⟨by omega, x.literal, ?_, ?_⟩
    · rw [onsetOf, if_pos h0, List.forall₂_map_left_iff, List.forall₂_same]
      exact fun _ _ => rfl
    · have := piece_sublist (w := w) h1 h2
      rwa [piece_all x.literal i h3] at this
  · have hb : onsetOf x = .inl x.iCons1 :: (if x.iCons2 = SC.RA then [.inl .RA] else if x.iCons2 = SC.LA then [.inl .LA] else
        if x.iCons2 = SC.WA then [.inl .WA] else []) := by
      rw [onsetOf, if_neg (by simpa using h0)]
    rw [hb]
    rcases h4 with ⟨e, rfl⟩ | ⟨rfl, d, cs, k1, k2, k3⟩
    · refine ⟨by omega, [c], ?_, ?_⟩
      · rw [e]
        exact .cons h3 .nil
      · have := piece_sublist (w := w) h1 h5
        rwa [piece_cons h2 0, Nat.add_zero, piece_nil] at this
    · refine ⟨by omega, [c, d], .cons h3 ?_, ?_⟩
      · simp only [secondLetters, List.mem_cons, Prod.mk.injEq, List.not_mem_nil, or_false] at k2
        rcases k2 with ⟨e, rfl⟩ | ⟨e, rfl⟩ | ⟨e, rfl⟩ <;> rw [e]
        · refine .cons (?_ : Heard X d .RA) .nil
          simp only [List.mem_cons, List.not_mem_nil, or_false] at k3
          rcases k3 with rfl | rfl
          · exact .inl (by decide)
          · exact .inr (.inl ⟨rfl, rfl⟩)
        · refine .cons (?_ : Heard X d .LA) .nil
          cases List.mem_singleton.mp k3
          exact .inl (by decide)
        · refine .cons (?_ : Heard X d .WA) .nil
          cases List.mem_singleton.mp k3
          exact .inl (by decide)
      · have := piece_sublist (w := w) h1 h5
        rwa [piece_cons h2 1, piece_cons k1 0, Nat.add_zero, piece_nil] at this

theorem order_written : ∀ (s : List Syl) (a : Nat), Written X w a s →
    ∃ l, List.Forall₂ (HeardAs X) (s.flatMap onsetOf) l ∧ l.Sublist (w.drop a)
  | [], a, _ => ⟨[], .nil, List.nil_sublist _⟩
  | x :: xs, a, ⟨b, h1, h2⟩ => by
    obtain ⟨h3, l, h4, h5⟩ := onset_written h1
    obtain ⟨l', h6, h7⟩ := order_written xs b h2
    refine ⟨l ++ l', ?_, ?_⟩
    · rw [List.flatMap_cons]
      exact List.rel_append h4 h6
    · have : w.drop a = piece w a b ++ w.drop b := by
        have := List.take_append_drop (b - a) (w.drop a)
        rw [List.drop_drop, show a + (b - a) = b by omega] at this
        exact this.symm
      rw [this]
      exact h5.append h7

theorem sound_letters {c : Nat} {snd : InitConsSound} (h : c ∈ soundLetters snd) : CanSound c := by
  have : ∀ c ∈ soundLetters snd, CanSound c := by cases snd <;> decide
  exact this c h

theorem heard_can {c : Nat} {snd : InitConsSound} (hX : ∀ e ∈ X, CanSound e.1) (h : Heard X c snd) : CanSound c := by
  rcases h with h | ⟨rfl, -⟩ | ⟨rfl, -⟩ | h
  · exact sound_letters h
  · exact .inr (.inl rfl)
  · exact .inr (.inr rfl)
  · exact hX _ h

/-- No more syllables than letters. -/
theorem count_heard (hX : ∀ e ∈ X, CanSound e.1) {s : List Syl} {l : List Nat}
    (h : List.Forall₂ (HeardAs X) (s.flatMap onsetOf) l) :
    (s.filter fun x => x.literal = []).length ≤ (l.filter fun c => CanSound c).length := by
  have h1 : (s.filter fun x => x.literal = []).length ≤ ((s.flatMap onsetOf).filter fun y => y.isLeft).length := by
    clear h
    induction s with
    | nil => exact Nat.le_refl _
    | cons x xs ih =>
      rw [List.flatMap_cons, List.filter_append, List.length_append]
      by_cases hx : x.literal = []
      · rw [List.filter_cons_of_pos (by simpa using hx), onsetOf, if_neg (by simpa using hx), List.filter_cons_of_pos rfl]
        simp only [List.length_cons]
        omega
      · rw [List.filter_cons_of_neg (by simpa using hx)]
        omega
  refine h1.trans ?_
  generalize s.flatMap onsetOf = m at h
  clear h1
  induction h with
  | nil => exact Nat.le_refl _
  | @cons y c ys cs h _ ih =>
    cases y with
    | inl snd =>
      rw [List.filter_cons_of_pos rfl, List.filter_cons_of_pos (by simpa using heard_can hX h)]
      simp only [List.length_cons]
      omega
    | inr d =>
      rw [List.filter_cons_of_neg (by simp)]
      exact ih.trans (List.Sublist.length_le (List.Sublist.filter _ (List.sublist_cons_self _ _)))

end Thpronun.Heard
