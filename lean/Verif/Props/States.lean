import Verif.Props.Readings

/-! # Nodes and states of the parser: C44, C45 -/

namespace Thpronun
open Res Spec DAG

variable {ct : CType} {w : U16Str} {brk : List Int} {look : List Nat → Option Str} {p : Parser} {word : Str}
  {d : PronunDAG}

/-! ## C44: pre-syllable positions -/

/-- The node number of a span determines the span, for spans of at most 100 characters. -/
theorem C44_injective (b e b' e' : Nat) (h : b < e ∧ e ≤ b + 100) (h' : b' < e' ∧ e' ≤ b' + 100)
    (heq : spanPos b e = spanPos b' e') : b = b' ∧ e = e' := by
  unfold spanPos at heq
  omega

/-- The bound is sharp. -/
theorem C44_sharp : spanPos 0 101 = spanPos 1 1 ∧ spanPos 0 102 = spanPos 1 2 := by decide

/-- It is never a text position. -/
theorem C44_negative (b e : Nat) (h : b < e) : spanPos b e < 0 := by
  unfold spanPos; omega

/-- Shifting by an offset is the encoding of the shifted span; text positions are shifted as such. -/
theorem C44_shift (o b e : Nat) (h : b < e) :
    SylString.shiftPos o (spanPos b e) = spanPos ((o + b : Nat) : Int) ((o + e : Nat) : Int) ∧
    SylString.shiftPos o e = ((o + e : Nat) : Int) := by
  refine ⟨?_, shiftPos_nat o e⟩
  unfold SylString.shiftPos spanPos
  rw [if_pos (by omega)]
  push_cast; ring

/-- Every syllable the grammar produces spans at most 40 characters. -/
theorem C44_grammar (hct : ct.Ok) {q t c : Nat} {l : Bool} (hq : q < t) (ht : t ≤ w.length)
    {ems : List Emit} (h : grammar ct w q t l c = .ok ems) (e : Emit) (he : e ∈ ems) :
    q < e.pos ∧ e.pos ≤ q + 40 := by
  obtain ⟨h1, -⟩ := grammar_ok hct hq ht h e he
  exact ⟨h1.lo, h1.span⟩

/-- An edge into a span's node begins where the span begins; one out of it ends where the span ends. -/
def SpanEdge (e : Entry Syl) : Prop :=
  (e.target < 0 → ∃ b q : Nat, b < q ∧ q ≤ b + 100 ∧ e.key = b ∧ e.target = spanPos b q) ∧
  (e.key < 0 → ∃ b q : Nat, b < q ∧ q ≤ b + 100 ∧ e.key = spanPos b q ∧ e.target = q)

/-- The same, with a period added at the end of the span. -/
def SpanDot (w : U16Str) (e : Entry Syl) : Prop :=
  0 ≤ e.target ∧ (e.key < 0 → ∃ b q : Nat, b < q ∧ q ≤ b + 100 ∧ e.key = spanPos b q ∧ e.target = (q : Int) + 1 ∧
    w[q]? = some ch!".")

/-- The entries of the dictionary use negative end positions for spans. -/
def SpanLook (look : List Nat → Option Str) : Prop :=
  ∀ v data strs, look v = some data → SylString.makeSylStrings data = .ok strs → ∀ str ∈ strs,
    ∀ e ∈ pathEdges 0 str, SpanEdge e

theorem pathEdges_shift (n : Int) (str : SylString) (o : Nat) :
    pathEdges (SylString.shiftPos o n) (SylString.shiftEndPos str o) =
      (pathEdges n str).map fun e => ⟨SylString.shiftPos o e.key, SylString.shiftPos o e.target,
        e.val.setEndPos (SylString.shiftPos o e.target)⟩ := by
  induction str generalizing n with
  | nil => rfl
  | cons a s ih =>
    have := ih a.endPos
    simp only [SylString.shiftEndPos] at this ⊢
    rw [List.map_cons, pathEdges, pathEdges, List.map_cons]
    simp only [Syl.setEndPos] at this ⊢
    rw [this]

theorem shiftPos_neg {o : Nat} {n : Int} : SylString.shiftPos o n < 0 ↔ n < 0 := by
  unfold SylString.shiftPos; split <;> omega

theorem spanEdge_shift {e : Entry Syl} (h : SpanEdge e) (o : Nat) :
    SpanEdge ⟨SylString.shiftPos o e.key, SylString.shiftPos o e.target,
      e.val.setEndPos (SylString.shiftPos o e.target)⟩ := by
  constructor
  · intro hn
    obtain ⟨b, q, h1, h2, h3, h4⟩ := h.1 (shiftPos_neg.mp hn)
    refine ⟨o + b, o + q, by omega, by omega, ?_, ?_⟩
    · simp only [h3, shiftPos_nat]
    · simp only [h4, (C44_shift o b q h1).1]
  · intro hn
    obtain ⟨b, q, h1, h2, h3, h4⟩ := h.2 (shiftPos_neg.mp hn)
    refine ⟨o + b, o + q, by omega, by omega, ?_, ?_⟩
    · simp only [h3, (C44_shift o b q h1).1]
    · simp only [h4, shiftPos_nat]

theorem spanEdge_nat {a b : Nat} {s : Syl} : SpanEdge ⟨a, b, s⟩ :=
  ⟨fun h => absurd h (by simp only; omega), fun h => absurd h (by simp only; omega)⟩

theorem step_span (hct : ct.Ok) (hl : SpanLook look) {c c' : Config} (hs : Step ct w look brk c c')
    (h : ∀ e ∈ c.edges, SpanEdge e ∨ SpanDot w e) : ∀ e ∈ c'.edges, SpanEdge e ∨ SpanDot w e := by
  have app : ∀ {es new : List (Entry Syl)}, (∀ e ∈ es, SpanEdge e ∨ SpanDot w e) → (∀ e ∈ new, SpanEdge e) →
      ∀ e ∈ es ++ new, SpanEdge e ∨ SpanDot w e := fun h1 h2 e he =>
    (List.mem_append.mp he).elim (h1 e) fun h => .inl (h2 e h)
  cases hs with
  | gap hg =>
    refine app h fun e he => ?_
    rw [List.mem_singleton] at he
    subst he
    exact spanEdge_nat
  | @dict q l es t m data strs str hst hm hmk hstr =>
    refine app h fun e he => ?_
    have hl' := hl _ _ _ (mem_dictAt hm).2.2.2.1 hmk str hstr
    have := pathEdges_shift 0 str q
    rw [show SylString.shiftPos (q : Int) 0 = (q : Int) by unfold SylString.shiftPos; simp] at this
    rw [this] at he
    obtain ⟨x, hx, rfl⟩ := List.mem_map.mp he
    exact spanEdge_shift (hl' x hx) q
  | @abbr q l es t m new hst hd ha hn =>
    refine app h fun e he => ?_
    have hch := abbrEdges_chain hct ha hn
    have hnat : ∃ a b : Nat, e.key = a ∧ e.target = b := by
      unfold abbrEdges at hn
      split at hn
      · cases hn
        rw [List.mem_singleton] at he
        subst he
        exact ⟨_, _, rfl, rfl⟩
      · obtain ⟨i, -, hi⟩ := forall₂_mem_right (mapRes_ok.mp hn) he
        simp only [bind_eq_ok] at hi
        obtain ⟨x, -, y, -, z, -, hi⟩ := hi
        cases hi
        refine ⟨q + i, if i + 1 = (if w[m - 1]? = some ch!"." then m - q - 1 else m - q) then m else q + i + 1, rfl, ?_⟩
        simp only
        rw [Nat.cast_ite]
    obtain ⟨k, v, x⟩ := e
    obtain ⟨a, b, h1, h2⟩ := hnat
    simp only at h1 h2
    subst h1 h2
    exact spanEdge_nat
  | @syl q l es t x ems em hst hpl hc hgr hem =>
    refine app h fun e he => ?_
    obtain ⟨h1, h2⟩ := C44_grammar hct hst.lt hst.le hgr em hem
    unfold sylEdges at he
    split at he
    · rcases List.mem_cons.mp he with rfl | he
      · exact ⟨fun _ => ⟨q, em.pos, h1, by omega, rfl, rfl⟩, fun h => absurd h (by simp only; omega)⟩
      · rw [List.mem_singleton] at he
        subst he
        exact ⟨fun h => absurd h (by simp only; omega), fun _ => ⟨q, em.pos, h1, by omega, rfl, rfl⟩⟩
    · rw [List.mem_singleton] at he
      subst he
      exact spanEdge_nat
  | @dot q l es t hst hpl hc =>
    intro e he
    obtain ⟨x, hx, rfl⟩ := List.mem_map.mp he
    unfold stretch
    split
    · rename_i ht
      right
      refine ⟨by simp only; omega, fun hk => ?_⟩
      rcases h x hx with h' | ⟨-, h'⟩
      · obtain ⟨b, q', h1, h2, h3, h4⟩ := h'.2 hk
        have : q' = q := by omega
        subst this
        exact ⟨b, q', h1, h2, h3, rfl, hc⟩
      · obtain ⟨b, q', h1, h2, h3, h4, h5⟩ := h' hk
        obtain ⟨-, hno, -⟩ := plain_dot hst hpl hc
        have : q - 1 = q' := by omega
        rw [this] at hno
        exact absurd h5 hno
    · exact h x hx

/-- In the result every negative node is the node of a span, entered only from the beginning of the span and left
only to its end (or to the period right after it): unrelated readings are not spliced together there. -/
theorem C44_result (hct : ct.Ok) (hw : fromBytes word = .ok w) (hd : Holds p.exceptDict look) (hl : SpanLook look)
    (h : p.parseWord ct word = .ok d) (e : Entry Syl) (he : e ∈ d.mFrom) :
    (e.target < 0 → ∃ b q : Nat, b < q ∧ q ≤ b + 100 ∧ e.key = b ∧ e.target = spanPos b q) ∧
    (e.key < 0 → ∃ b q : Nat, b < q ∧ q ≤ b + 100 ∧ e.key = spanPos b q ∧
      (e.target = q ∨ (e.target = (q : Int) + 1 ∧ w[q]? = some ch!"."))) := by
  rw [C37_word p word w hw] at h
  obtain ⟨es, e', ⟨c, hc, -, rfl⟩, he', h1, h2, -⟩ := edge_reading hct hd h he
  have key : ∀ e ∈ c.edges, SpanEdge e ∨ SpanDot w e := by
    clear he'
    induction hc with
    | refl => intro e he; cases he
    | tail _ hs ih => exact step_span hct hl hs ih
  rw [← h1, ← h2]
  rcases key e' he' with ⟨k1, k2⟩ | ⟨k1, k2⟩
  · refine ⟨k1, fun h => ?_⟩
    obtain ⟨b, q, a1, a2, a3, a4⟩ := k2 h
    exact ⟨b, q, a1, a2, a3, .inl a4⟩
  · refine ⟨fun h => absurd h (by omega), fun h => ?_⟩
    obtain ⟨b, q, a1, a2, a3, a4, a5⟩ := k2 h
    exact ⟨b, q, a1, a2, a3, .inr ⟨a4, a5⟩⟩

/-- The shipped data satisfy the condition on negative end positions. -/
theorem C44_shipped : SpanLook (lastData exceptEntries) := by
  have h : ∀ e ∈ exceptEntries, (match SylString.makeSylStrings e.data with
      | .ok strs => strs.all fun str => (pathEdges 0 str).all fun x =>
          (decide (0 ≤ x.target) || (decide (0 ≤ x.key) && (List.range 200).any fun q => decide (x.key < (q : Int) ∧
            (q : Int) ≤ x.key + 100 ∧ x.target = spanPos x.key q))) &&
          (decide (0 ≤ x.key) || (List.range 200).any fun b => decide ((b : Int) < x.target ∧
            x.target ≤ (b : Int) + 100 ∧ x.key = spanPos b x.target))
      | _ => true) = true := by decide +kernel
  intro v data strs hl hmk str hstr x hx
  unfold lastData at hl
  obtain ⟨e, he, rfl⟩ := Option.map_eq_some_iff.mp hl
  have := h e (List.mem_reverse.mp (List.mem_of_find?_eq_some he))
  rw [hmk] at this
  have := List.all_eq_true.mp (List.all_eq_true.mp this str hstr) x hx
  simp only [Bool.and_eq_true, Bool.or_eq_true, decide_eq_true_eq, List.any_eq_true] at this
  obtain ⟨t1, t2⟩ := this
  constructor
  · intro hn
    rcases t1 with t1 | ⟨t1, q, -, h1, h2, h3⟩
    · omega
    · refine ⟨x.key.toNat, q, by omega, by omega, by omega, ?_⟩
      rw [h3, Int.toNat_of_nonneg t1]
  · intro hn
    rcases t2 with t2 | ⟨b, -, h1, h2, h3⟩
    · omega
    · refine ⟨b, x.target.toNat, by omega, by omega, ?_, by omega⟩
      rw [h3, Int.toNat_of_nonneg (by omega)]

example : ∃ s ∈ (exceptEntries.map fun e => SylString.makeSylStrings e.data), ∃ strs, s = .ok strs ∧
    ∃ str ∈ strs, ∃ x ∈ str, x.endPos = spanPos 4 7 := by
  refine ⟨SylString.makeSylStrings b!"prAt1@4,T_a_1@-407,n_A_4@7", by decide +kernel, _, rfl, _, List.mem_singleton.mpr rfl, ?_⟩
  decide +kernel

/-! ## C45: the state pool -/

/-- The pools that `add` (of states satisfying `P`) and `pop` (taking off the first state) can make. -/
inductive Pool (P : PState → Prop) : StatePool → Prop
  | empty : Pool P []
  | add {l} (s : PState) : P s → Pool P l → Pool P (StatePool.add l s)
  | pop {s l} : Pool P (s :: l) → Pool P l

theorem pool_pos {l : StatePool} {s x : PState} (h : x ∈ StatePool.add l s) :
    x.pos = s.pos ∨ ∃ y ∈ l, x.pos = y.pos := by
  rcases mem_poolAdd h with h | rfl | ⟨y, hy, -, -, rfl⟩
  · exact .inr ⟨x, h, rfl⟩
  · exact .inl rfl
  · exact .inr ⟨y, hy, rfl⟩

/-- The pool is sorted by position: `pop` returns a state with minimal position. -/
theorem C45_min {l : StatePool} (h : Pool (fun _ => True) l) : l.Pairwise fun a b => a.pos ≤ b.pos := by
  induction h with
  | empty => exact .nil
  | @add l s _ _ ih =>
    clear * - ih
    induction l with
    | nil => simp [StatePool.add]
    | cons a l ih' =>
      obtain ⟨h1, h2⟩ := List.pairwise_cons.mp ih
      rw [StatePool.add]
      split
      · exact List.pairwise_cons.mpr ⟨h1, h2⟩
      · split
        · rename_i hge
          refine List.pairwise_cons.mpr ⟨fun b hb => ?_, ih⟩
          rcases List.mem_cons.mp hb with rfl | hb
          · exact hge
          · exact le_trans hge (h1 b hb)
        · rename_i hge
          refine List.pairwise_cons.mpr ⟨fun b hb => ?_, ih' h2⟩
          rcases pool_pos hb with h | ⟨y, hy, h⟩
          · omega
          · rw [h]; exact h1 y hy
  | pop _ ih => exact (List.pairwise_cons.mp ih).2

/-- Adding loses nothing: the new state and every state that was pending are still represented, with all their
edges. -/
theorem C45_lossless (l : StatePool) (s z : PState) (hz : z = s ∨ z ∈ l) :
    ∃ x ∈ StatePool.add l s, x.pos = z.pos ∧ x.linked = z.linked ∧ ∀ u v y, Edge z.dag u v y → Edge x.dag u v y := by
  rcases hz with rfl | hz
  · exact poolAdd_covers_new l z
  · exact poolAdd_covers_old l s hz

/-- Adding invents nothing: every edge of a pending state comes from the new state or from a pending state with the
same position and flag. -/
theorem C45_sound (l : StatePool) (s x : PState) (hx : x ∈ StatePool.add l s) (u v : Int) (y : Syl)
    (hy : Edge x.dag u v y) :
    ∃ z, (z = s ∨ z ∈ l) ∧ z.pos = x.pos ∧ z.linked = x.linked ∧ Edge z.dag u v y := by
  rcases mem_poolAdd hx with h | rfl | ⟨z, hz, h1, h2, rfl⟩
  · exact ⟨x, .inr h, rfl, rfl, hy⟩
  · exact ⟨x, .inl rfl, rfl, rfl, hy⟩
  · rcases (C14_unionDAG z.dag s.dag u v y).mp hy with hy | hy
    · exact ⟨z, .inr hz, rfl, rfl, hy⟩
    · exact ⟨s, .inl rfl, h1.symm, h2.symm, hy⟩

private def st (f : Bool) : PState := ⟨5, 9, DAG.empty, f⟩

/-- Two pending states with the same position and flag: `add` compares only with the first state of the position. -/
theorem C45_false : ∃ l, Pool (fun _ => True) l ∧ ∃ a b r, l = a :: b :: r ∧ ∃ c ∈ r, a.pos = c.pos ∧ a.linked = c.linked := by
  refine ⟨_, .add (st false) trivial (.add (st true) trivial (.add (st false) trivial .empty)), st false, st true, [st false], ?_, st false,
    by simp, rfl, rfl⟩
  simp [StatePool.add, st]

/-- If all states added have the same flag, there is at most one state for each position. (Missing: mixed flags, see
`C45_false`.) -/
theorem C45_partial (f : Bool) {l : StatePool} (h : Pool (fun s => s.linked = f) l) :
    l.Pairwise fun a b => a.pos < b.pos := by
  have key : (∀ s ∈ l, s.linked = f) ∧ l.Pairwise fun a b => a.pos < b.pos := by
    induction h with
    | empty => exact ⟨fun _ h => (by cases h), List.Pairwise.nil⟩
    | pop _ ih => exact ⟨fun x hx => ih.1 x (by simp [hx]), (List.pairwise_cons.mp ih.2).2⟩
    | @add l s hs _ ih =>
      obtain ⟨h2, h3⟩ := ih
      refine ⟨fun x hx => ?_, ?_⟩
      · rcases mem_poolAdd hx with h | rfl | ⟨z, hz, -, -, rfl⟩
        · exact h2 x h
        · exact hs
        · exact h2 z hz
      · clear * - h2 h3 hs
        induction l with
        | nil => simp [StatePool.add]
        | cons a l ih' =>
          obtain ⟨k1, k2⟩ := List.pairwise_cons.mp h3
          have ha := h2 a (by simp)
          rw [StatePool.add]
          split
          · exact List.pairwise_cons.mpr ⟨k1, k2⟩
          · rename_i hc
            have hne : a.pos ≠ s.pos := fun h => hc ⟨h, by rw [ha, hs]⟩
            split
            · rename_i hge
              refine List.pairwise_cons.mpr ⟨fun b hb => ?_, h3⟩
              rcases List.mem_cons.mp hb with rfl | hb
              · omega
              · have := k1 b hb; omega
            · rename_i hge
              refine List.pairwise_cons.mpr ⟨fun b hb => ?_, ih' (fun x hx => h2 x (by simp [hx])) k2⟩
              rcases pool_pos hb with h | ⟨y, hy, h⟩
              · omega
              · rw [h]; exact k1 y hy
  exact key.2

example : (([⟨5, 9, DAG.empty, false⟩, ⟨3, 9, DAG.empty, false⟩, ⟨5, 9, DAG.empty, false⟩] : List PState).foldl
    StatePool.add []).map PState.pos = [3, 5] := by decide +kernel

end Thpronun
