import Verif.Lemmas.Listed
import Verif.Lemmas.Raw

/-! # Raw lines tell pronunciations apart: helper lemmas -/

namespace Thpronun
open Res Spec DAG

theorem natDec_inj {n m : Nat} (h : natDec n = natDec m) : n = m := by
  have h1 := digitsVal_natDec n [] (by simp)
  have h2 := digitsVal_natDec m [] (by simp)
  rw [h] at h1
  exact h1.symm.trans h2

theorem toStringInt_inj {i j : Int} (h : toStringInt i = toStringInt j) : i = j := by
  have hd : ∀ n k, natDec n ≠ 45 :: natDec k := fun n k e => by
    have := isDigit_cases (natDec_digits n 45 (by rw [e]; simp))
    omega
  cases i with
  | ofNat n =>
    cases j with
    | ofNat m => rw [natDec_inj h]
    | negSucc m => exact absurd h (hd n (m + 1))
  | negSucc n =>
    cases j with
    | ofNat m => exact absurd h.symm (hd m (n + 1))
    | negSucc m =>
      have := natDec_inj (List.cons.inj h).2
      rw [show n = m by omega]

/-- Digits and the minus sign. -/
def NumByte (b : Nat) : Prop := b = 45 ∨ (48 ≤ b ∧ b ≤ 57)

theorem num_split {a b r s : Str} (ha : ∀ x ∈ a, NumByte x) (hb : ∀ x ∈ b, NumByte x)
    (hr : ∀ x ∈ r.head?, ¬ NumByte x) (hs : ∀ x ∈ s.head?, ¬ NumByte x) (h : a ++ r = b ++ s) : a = b ∧ r = s := by
  induction a generalizing b with
  | nil =>
    cases b with
    | nil => exact ⟨rfl, h⟩
    | cons y b =>
      rw [List.nil_append] at h
      subst h
      exact absurd (hb y (List.mem_cons_self ..)) (hr y rfl)
  | cons x a ih =>
    cases b with
    | nil =>
      rw [List.nil_append] at h
      subst h
      exact absurd (ha x (List.mem_cons_self ..)) (hs x rfl)
    | cons y b =>
      obtain ⟨rfl, h3⟩ := List.cons.inj h
      obtain ⟨h1, h2⟩ := ih (fun z hz => ha z (List.mem_cons_of_mem _ hz)) (fun z hz => hb z (List.mem_cons_of_mem _ hz)) h3
      exact ⟨by rw [h1], h2⟩

variable {ct : CType} {w : U16Str} {look : List Nat → Option Str} {brk : List Int}

/-- The two kinds of edges of readings: syllables and literals; the latter are determined by where they begin. -/
theorem readEdge_kind (hct : ct.Ok) (hg : GoodLook look) {a b : Int} {x : Syl} (h : ReadEdge ct w look brk a b x) :
    ValidSyl x ∨ (x.literal ≠ [] ∧ ∃ i j : Nat, a = i ∧ x.literal = piece w i j ∧
      (IsGap ct w i j ∨ (j = i + 1 ∧ w[i]? = some ch!"."))) := by
  obtain ⟨es, hr, e, he, rfl, rfl, hx⟩ := h
  have hi := (reading_inv hct hg ((ruleReading_iff hct).mp hr)).fact e he
  have hlit := ((Syl.eq_iff _ _).mp hx).1
  have gap : ∀ {i j : Nat}, IsGap ct w i j → piece w i j ≠ [] := fun {i j} hij h0 => by
    have := congrArg List.length h0
    have h1 := hij.lt
    have h2 := hij.le
    unfold piece at this
    simp at this
    omega
  have kind : ∀ {e0 : Entry Syl}, Fact ct w brk e0 → ∀ x, x.literal = e0.val.literal →
      (ValidSyl e0.val → ValidSyl x) → ValidSyl x ∨ (x.literal ≠ [] ∧ ∃ i j : Nat, e0.key = i ∧ x.literal = piece w i j ∧
      (IsGap ct w i j ∨ (j = i + 1 ∧ w[i]? = some ch!"."))) := by
    intro e0 hf x hl hv
    cases hf with
    | @gap i j hg hb => exact .inr ⟨by rw [hl]; exact gap hg, i, j, rfl, hl, .inl hg⟩
    | @dot i hdot =>
      refine .inr ⟨by rw [hl]; exact List.cons_ne_nil _ _, i, i + 1, rfl, ?_, .inr ⟨rfl, hdot⟩⟩
      rw [hl, piece_one hdot]; rfl
    | syl h _ => exact .inl (hv h)
  rcases hi with hf | ⟨e0, q, hf, -, -, -, -, -, rfl⟩
  · exact kind hf x hlit.symm (valid_of_ceq hx)
  · exact kind hf x hlit.symm fun hv => valid_of_ceq hx (hv.setEndPos _)

theorem literal_same (hct : ct.Ok) (hg : GoodLook look) {a b b' : Int} {x y : Syl} (h : ReadEdge ct w look brk a b x)
    (h' : ReadEdge ct w look brk a b' y) (hx : x.literal ≠ []) (hy : y.literal ≠ []) : x.literal = y.literal := by
  rcases readEdge_kind hct hg h with hv | ⟨-, i, j, ha, hl, hij⟩
  · exact absurd hv.literal hx
  rcases readEdge_kind hct hg h' with hv | ⟨-, i', j', ha', hl', hij'⟩
  · exact absurd hv.literal hy
  obtain rfl : i = i' := by omega
  have tok : w[i]? = some ch!"." → Token ct w i := fun h => ⟨_, h, by simp [isThaiTokenChar]⟩
  have hj : j = j' := by
    rcases hij with hij | ⟨h1, h2⟩ <;> rcases hij' with hij' | ⟨h1', h2'⟩
    · rcases Nat.lt_trichotomy j j' with hlt | heq | hgt
      · rcases hij.fin with hf | hf
        · have := hij'.le; omega
        · exact absurd hf (hij'.no j (Nat.le_of_lt hij.lt) hlt)
      · exact heq
      · rcases hij'.fin with hf | hf
        · have := hij.le; omega
        · exact absurd hf (hij.no j' (Nat.le_of_lt hij'.lt) hgt)
    · exact absurd (tok h2') (hij.no i (Nat.le_refl _) hij.lt)
    · exact absurd (tok h2) (hij'.no i (Nat.le_refl _) hij'.lt)
    · omega
  rw [hl, hl', hj]

theorem toStringInt_num (i : Int) : ∀ b ∈ toStringInt i, NumByte b := toStringInt_chars i

/-- The raw texts of two syllables that begin at the same node, before a delimiter or at the end of the line. -/
theorem raw_split (hct : ct.Ok) (hg : GoodLook look) {a b b' : Int} {x y : Syl} (h : ReadEdge ct w look brk a b x)
    (h' : ReadEdge ct w look brk a b' y) {t t' r r' : Str} (hx : rawSyl x = .ok t) (hy : rawSyl y = .ok t')
    (hr : ∀ x ∈ r.head?, ¬ NumByte x) (hr' : ∀ x ∈ r'.head?, ¬ NumByte x) (he : t ++ r = t' ++ r') :
    SameSyl x y ∧ r = r' := by
  have lit : ∀ {x : Syl} {t}, x.literal ≠ [] → rawSyl x = .ok t →
      ∃ u, toBytes x.literal = .ok u ∧ t = b!"(" ++ u ++ b!")" ++ b!"@" ++ toStringInt x.endPos := by
    intro x t hl ht
    have hb : ¬ ceq x Syl.blank = true := fun h => hl ((Syl.eq_iff _ _).mp h).1
    have hL : x.isLiteral = true := by unfold Syl.isLiteral; simpa using hl
    unfold rawSyl outputLiteral at ht
    rw [if_neg hb, if_pos hL] at ht
    cases hu : toBytes x.literal with
    | ok u => rw [hu] at ht; exact ⟨u, rfl, (Res.ok.inj ht).symm⟩
    | _ => rw [hu] at ht; cases ht
  have nohead : ∀ {x : Syl}, ValidSyl x → rawI x.iCons1 ≠ ch!"(" := fun {x} _ => by cases x.iCons1 <;> decide
  rcases readEdge_kind hct hg h with hv | ⟨hl, -⟩ <;> rcases readEdge_kind hct hg h' with hv' | ⟨hl', -⟩
  · rw [rawSyl_valid x hv] at hx
    rw [rawSyl_valid y hv'] at hy
    cases hx; cases hy
    simp only [List.cons_append, List.nil_append, List.cons.injEq, true_and] at he
    obtain ⟨e1, e2, e3, e4, e5, he⟩ := he
    obtain ⟨hn, hrr⟩ := num_split (toStringInt_num _) (toStringInt_num _) hr hr' he
    refine ⟨⟨?_, toStringInt_inj hn⟩, hrr⟩
    have k1 := sylOfDesc_raw (x.setEndPos 0) (hv.setEndPos 0) (by unfold Syl.setEndPos IsInt; simp) 0
    have k2 := sylOfDesc_raw (y.setEndPos 0) (hv'.setEndPos 0) (by unfold Syl.setEndPos IsInt; simp) 0
    simp only [Syl.setEndPos] at k1 k2
    rw [e1, e2, e3, e4, e5, k2] at k1
    have k := Res.ok.inj k1
    rw [Syl.mk.injEq] at k
    obtain ⟨j1, j2, j3, j4, j5, j6, -⟩ := k
    exact (Syl.eq_iff _ _).mpr ⟨j6.symm, fun _ => ⟨j1.symm, j2.symm, j3.symm, j4.symm, j5.symm⟩⟩
  · rw [rawSyl_valid x hv] at hx
    obtain ⟨u, -, rfl⟩ := lit hl' hy
    cases hx
    exact absurd (List.cons.inj he).1 (nohead hv)
  · rw [rawSyl_valid y hv'] at hy
    obtain ⟨u, -, rfl⟩ := lit hl hx
    cases hy
    exact absurd (List.cons.inj he).1.symm (nohead hv')
  · obtain ⟨u, hu, rfl⟩ := lit hl hx
    obtain ⟨u', hu', rfl⟩ := lit hl' hy
    have hll := literal_same hct hg h h' hl hl'
    rw [hll, hu'] at hu
    cases hu
    simp only [List.append_assoc, List.append_cancel_left_eq] at he
    obtain ⟨hn, hrr⟩ := num_split (toStringInt_num _) (toStringInt_num _) hr hr' he
    exact ⟨⟨(Syl.eq_iff _ _).mpr ⟨hll, fun h0 => absurd h0 (by simpa [Syl.isLiteral] using hl)⟩, toStringInt_inj hn⟩, hrr⟩

/-- Two ways from a node with the same raw text are the same pronunciation. -/
theorem raw_routes (hct : ct.Ok) (hg : GoodLook look) (delim : Nat) (hdel : ¬ NumByte delim) (T : Syl → Str) (c : Int) :
    ∀ (s t : List Syl) (a : Int), Route (ReadEdge ct w look brk) a c s → Route (ReadEdge ct w look brk) a c t →
      (∀ x ∈ s, rawSyl x = .ok (T x)) → (∀ x ∈ t, rawSyl x = .ok (T x)) →
      (s.map T).flatMap (fun u => delim :: u) = (t.map T).flatMap (fun u => delim :: u) → SamePron s t := by
  have head : ∀ (l : List Syl), ∀ x ∈ ((l.map T).flatMap (fun u => delim :: u)).head?, ¬ NumByte x := by
    intro l x hx
    cases l with
    | nil => cases hx
    | cons y l => cases hx; exact hdel
  intro s
  induction s with
  | nil =>
    intro t a _ _ _ _ h
    cases t with
    | nil => exact .nil
    | cons y t => cases h
  | cons x s ih =>
    intro t a hs ht hx hy h
    cases t with
    | nil => cases h
    | cons y t =>
      simp only [List.map_cons, List.flatMap_cons, List.cons_append, List.cons.injEq, true_and] at h
      obtain ⟨h1, h2⟩ := raw_split hct hg hs.1 ht.1 (hx x (List.mem_cons_self ..)) (hy y (List.mem_cons_self ..)) (head s) (head t) h
      refine .cons h1 (ih t x.endPos hs.2 (by rw [h1.2]; exact ht.2) (fun z hz => hx z (List.mem_cons_of_mem _ hz))
        (fun z hz => hy z (List.mem_cons_of_mem _ hz)) h2)

end Thpronun
