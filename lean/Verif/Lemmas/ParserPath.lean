import Verif.Lemmas.ParserLoop

/-! # Readings as forward paths: helper lemmas -/

namespace Thpronun
open Res Spec DAG

section
variable {ct : CType} {w : U16Str} {brk : List Int} {look : List Nat → Option Str}

/-! ## Places -/

theorem place_nat (n : Nat) : place (n : Int) = 2 * n := by
  unfold place; rw [if_neg (by omega)]

theorem place_span {b e : Nat} (h1 : b < e) (h2 : e ≤ b + 100) : place (spanPos b e) = 2 * b + 1 := by
  unfold place spanPos
  rw [if_pos (by omega)]
  omega

theorem place_shift (n : Int) (o : Nat) : place (SylString.shiftPos o n) = place n + 2 * o := by
  unfold place SylString.shiftPos
  by_cases h : n < 0
  · rw [if_pos h, if_pos h, if_pos (by omega)]; omega
  · rw [if_neg h, if_neg h, if_neg (by omega)]; omega

theorem place_nonneg (n : Int) : 0 ≤ place n := by
  unfold place; split <;> omega

/-- The text position at or before a node. -/
def base (n : Int) : Nat := (place n / 2).toNat

theorem base_nat (n : Nat) : base (n : Int) = n := by
  unfold base; rw [place_nat]; omega

theorem base_span {b e : Nat} (h1 : b < e) (h2 : e ≤ b + 100) : base (spanPos b e) = b := by
  unfold base; rw [place_span h1 h2]; omega

/-! ## Forward chains of edges -/

/-- The edges lead strictly forward from `p` to `q`. -/
def Chain (p q : Int) : List (Entry Syl) → Prop
  | [] => p = q
  | e :: es => e.key = p ∧ place p < place e.target ∧ Chain e.target q es

theorem Chain.append {p q r : Int} {a b : List (Entry Syl)} (h : Chain p q a) (h' : Chain q r b) :
    Chain p r (a ++ b) := by
  induction a generalizing p with
  | nil => obtain rfl := h; exact h'
  | cons e a ih => exact ⟨h.1, h.2.1, ih h.2.2⟩

theorem Chain.le {p q : Int} {a : List (Entry Syl)} (h : Chain p q a) : place p ≤ place q := by
  induction a generalizing p with
  | nil => obtain rfl := h; exact le_rfl
  | cons e a ih => exact h.2.1.le.trans (ih h.2.2)

theorem Chain.mem {p q : Int} {a : List (Entry Syl)} (h : Chain p q a) {e : Entry Syl} (he : e ∈ a) :
    place p ≤ place e.key ∧ place e.key < place e.target ∧ place e.target ≤ place q := by
  induction a generalizing p with
  | nil => cases he
  | cons x a ih =>
    rcases List.mem_cons.mp he with rfl | he
    · exact ⟨by rw [h.1], by rw [h.1]; exact h.2.1, h.2.2.le⟩
    · obtain ⟨h1, h2, h3⟩ := ih h.2.2 he
      exact ⟨h.2.1.le.trans h1, h2, h3⟩

/-- No edge of a chain is a dead end. -/
theorem Chain.next {p q : Int} {a : List (Entry Syl)} (h : Chain p q a) {e : Entry Syl} (he : e ∈ a) :
    e.target = q ∨ ∃ e' ∈ a, e'.key = e.target := by
  induction a generalizing p with
  | nil => cases he
  | cons x a ih =>
    rcases List.mem_cons.mp he with rfl | he
    · cases a with
      | nil => exact .inl h.2.2
      | cons y a => exact .inr ⟨y, by simp, h.2.2.1⟩
    · rcases ih h.2.2 he with h' | ⟨e', h1, h2⟩
      · exact .inl h'
      · exact .inr ⟨e', by simp [h1], h2⟩

theorem Chain.prev {p q : Int} {a : List (Entry Syl)} (h : Chain p q a) {e : Entry Syl} (he : e ∈ a) :
    e.key = p ∨ ∃ e' ∈ a, e'.target = e.key := by
  induction a generalizing p with
  | nil => cases he
  | cons x a ih =>
    rcases List.mem_cons.mp he with rfl | he
    · exact .inl h.1
    · rcases ih h.2.2 he with h' | ⟨e', h1, h2⟩
      · exact .inr ⟨x, by simp, h'.symm⟩
      · exact .inr ⟨e', by simp [h1], h2⟩

theorem Chain.stretch {u : Int} {p : Nat} {a : List (Entry Syl)} (h : Chain u p a) (hne : a ≠ []) :
    Chain u ((p : Int) + 1) (a.map (stretch p)) := by
  induction a generalizing u with
  | nil => exact absurd rfl hne
  | cons e a ih =>
    cases a with
    | nil =>
      obtain ⟨h1, h2, h3⟩ := h
      have h3 : e.target = p := h3
      rw [List.map_singleton, Spec.stretch, if_pos h3]
      refine ⟨h1, ?_, rfl⟩
      have e1 := place_nat p
      have e2 := place_nat (p + 1)
      rw [h3] at h2
      push_cast at e2
      simp only
      omega
    | cons y b =>
      obtain ⟨h1, h2, h3⟩ := h
      have hlt : place e.target < place p := lt_of_lt_of_le h3.2.1 h3.2.2.le
      rw [List.map_cons, Spec.stretch, if_neg (by intro h; rw [h] at hlt; omega)]
      exact ⟨h1, h2, ih h3 (by simp)⟩

theorem chain_path {p q : Int} {s : SylString} (h : Forward p q s) (o : Nat) :
    Chain (SylString.shiftPos o p) (SylString.shiftPos o q) (pathEdges (SylString.shiftPos o p)
      (SylString.shiftEndPos s o)) := by
  induction s generalizing p with
  | nil => obtain rfl := h; exact rfl
  | cons a s ih =>
    refine ⟨rfl, ?_, ih h.2⟩
    show place _ < place (SylString.shiftPos o a.endPos)
    rw [place_shift, place_shift]
    have := h.1
    omega

theorem shiftPos_nat (o n : Nat) : SylString.shiftPos o (n : Int) = ((o + n : Nat) : Int) := by
  unfold SylString.shiftPos
  rw [if_neg (by omega)]; push_cast; omega

/-! ## The edges of the steps -/

/-- No word break inside the edge, except that a leading vowel takes the consonant behind a break. -/
def Within (ct : CType) (w : U16Str) (brk : List Int) (e : Entry Syl) : Prop :=
  place e.target ≤ 2 * nextBreak w brk (base e.key) ∨
  ((∃ c, w[base e.key]? = some c ∧ ct.isLdVowel c = true ∧ c ≠ UTH.SARA_E) ∧
    nextBreak w brk (base e.key) = base e.key + 1 ∧ e.target = base e.key + 2)

/-- What an edge stands for when it is made. -/
inductive Fact (ct : CType) (w : U16Str) (brk : List Int) : Entry Syl → Prop
  | gap {p q : Nat} : IsGap ct w p q → (p = 0 ∨ Token ct w (p - 1)) → Fact ct w brk ⟨p, q, Syl.lit q (piece w p q)⟩
  | dot {p : Nat} : w[p]? = some ch!"." →
      Fact ct w brk ⟨p, (p : Int) + 1, Syl.lit ((p : Int) + 1) [ch!"."]⟩
  | syl {e} : ValidSyl e.val → Within ct w brk e → Fact ct w brk e

/-- An edge with a period added. -/
def Stretched (ct : CType) (w : U16Str) (brk : List Int) (e : Entry Syl) : Prop :=
  ∃ (e0 : Entry Syl) (p : Nat), Fact ct w brk e0 ∧ e0.target = p ∧ 0 < p ∧ w[p]? = some ch!"." ∧
    w[p - 1]? ≠ some ch!"." ∧ w[p - 1]? ≠ some ch!" " ∧ e = ⟨e0.key, (p : Int) + 1, e0.val.setEndPos ((p : Int) + 1)⟩

theorem toSyl_valid {S b t : Nat} {e : Emit} (h : EOK ct w b t S e) (q : Nat) : ValidSyl (e.p.toSyl q) :=
  ⟨rfl, h.init.1, h.init.2.1, h.vowel,
    fun he => h.tone ((C01_valid _ _ _ _).mp he)⟩

theorem Spec.ValidSyl.setEndPos {s : Syl} (h : ValidSyl s) (q : Int) : ValidSyl (s.setEndPos q) :=
  ⟨h.literal, h.iCons1, h.iCons2, h.vowel, h.tone⟩

theorem sylEdges_chain {S p t : Nat} {e : Emit} (h : EOK ct w p t S e) : Chain p e.pos (sylEdges p e) := by
  have h1 := h.lo
  have h2 := h.span
  unfold sylEdges
  cases hp : e.p.pre with
  | none =>
    refine ⟨rfl, ?_, rfl⟩
    simp only [place_nat]; omega
  | some pre =>
    have h3 : place (spanPos (p : Int) (e.pos : Int)) = 2 * p + 1 := place_span h1 (by omega)
    refine ⟨rfl, ?_, rfl, ?_, rfl⟩
    · simp only [place_nat, h3]; omega
    · simp only [place_nat, h3]; omega

theorem sylEdges_fact {p t c : Nat} {e : Emit} (hst : IsStop ct w brk p t) (hc : w[p]? = some c)
    (h : EOK ct w p t (reach ct p t c) e) : ∀ x ∈ sylEdges p e, Fact ct w brk x := by
  have h1 := h.lo
  have h2 := h.span
  have h4 := h.hi
  have hb := hst.bound
  have hlt := hst.lt
  have main : ∀ k : Int, base k = p → Within ct w brk ⟨k, e.pos, e.p.toSyl e.pos⟩ := by
    intro k hk
    unfold Within
    simp only [hk, place_nat]
    unfold reach at h4
    split at h4
    · rename_i hcr
      by_cases hle : (e.pos : Int) ≤ nextBreak w brk p
      · left; omega
      · right
        exact ⟨⟨c, hc, hcr.1, hcr.2.1⟩, by omega, by omega⟩
    · left; omega
  unfold sylEdges
  cases hp : e.p.pre with
  | none =>
    intro x hx
    rw [List.mem_singleton] at hx
    subst hx
    exact .syl (toSyl_valid h _) (main _ (base_nat p))
  | some pre =>
    have h3 : place (spanPos (p : Int) (e.pos : Int)) = 2 * p + 1 := place_span h1 (by omega)
    intro x hx
    simp only [List.mem_cons, List.not_mem_nil, or_false] at hx
    rcases hx with rfl | rfl
    · refine .syl ((h.init.2.2 pre hp).setEndPos _) (.inl ?_)
      simp only [base_nat, h3]; omega
    · exact .syl (toSyl_valid h _) (main _ (base_span h1 (by omega)))

theorem shift_valid {str : SylString} (h : ∀ s ∈ str, ValidSyl s) (o : Int) :
    ∀ s ∈ SylString.shiftEndPos str o, ValidSyl s := by
  intro s hs
  obtain ⟨x, hx, rfl⟩ := List.mem_map.mp hs
  exact (h x hx).setEndPos _

theorem pathEdges_val {p : Int} {str : SylString} {e : Entry Syl} (h : e ∈ pathEdges p str) : e.val ∈ str := by
  induction str generalizing p with
  | nil => cases h
  | cons a s ih =>
    rcases List.mem_cons.mp h with rfl | h
    · simp
    · exact List.mem_cons_of_mem _ (ih h)

theorem within_of_bounds {p q t : Nat} (hst : IsStop ct w brk p t) (hq : q ≤ t) {e : Entry Syl}
    (h1 : 2 * (p : Int) ≤ place e.key) (h2 : place e.key < place e.target) (h3 : place e.target ≤ 2 * q) :
    Within ct w brk e := by
  left
  have hb : (p : Int) ≤ base e.key ∧ (base e.key : Int) < q := by unfold base; omega
  have := hst.bound
  have hm : nextBreak w brk (base e.key) = nextBreak w brk p := nextBreak_mid (by omega) (by omega)
  rw [hm]; omega

theorem dictEdges {p q t : Nat} {data : Str} (hst : IsStop ct w brk p t)
    (hm : (q, data) ∈ dictAt ct w look p t) (hg : GoodLook look) {strs str}
    (hmk : SylString.makeSylStrings data = .ok strs) (hs : str ∈ strs) :
    Chain p q (pathEdges p (SylString.shiftEndPos str p)) ∧
      ∀ x ∈ pathEdges p (SylString.shiftEndPos str p), Fact ct w brk x := by
  obtain ⟨m1, m2, m3, m4, -⟩ := mem_dictAt hm
  simp only at m1 m2 m3 m4
  obtain ⟨strs', hmk', hall⟩ := hg _ _ m4
  rw [hmk] at hmk'; cases hmk'
  obtain ⟨hv, hf⟩ := hall str hs
  have hlen : (piece w p q).length = q - p := by
    unfold piece; rw [List.length_take, List.length_drop]; omega
  rw [hlen] at hf
  have hc := chain_path hf p
  have e0 : SylString.shiftPos p 0 = (p : Int) := by
    have := shiftPos_nat p 0; simpa using this
  have e1 : SylString.shiftPos p ((q - p : Nat) : Int) = (q : Int) := by
    rw [shiftPos_nat]; congr 1; omega
  rw [e0, e1] at hc
  refine ⟨hc, fun x hx => .syl (shift_valid hv _ _ (pathEdges_val hx)) ?_⟩
  obtain ⟨h1, h2, h3⟩ := hc.mem hx
  rw [place_nat] at h1 h3
  exact within_of_bounds hst m2 h1 h2 h3

theorem abbrEdges_chain (hct : ct.Ok) {p q t : Nat} {new} (ha : IsAbbr ct w p t q) (hn : abbrEdges w p q = .ok new) :
    Chain p q new := by
  unfold abbrEdges at hn
  by_cases hd : w[p]? = some ch!"."
  · rw [if_pos hd] at hn
    cases hn
    have : q = p + 1 := by
      rcases ha.shape with ⟨n, hn, rfl, hc, -⟩ | ⟨rfl, -⟩
      · cases n with
        | zero => rfl
        | succ n =>
          obtain ⟨c, hc, hcc⟩ := hc p le_rfl (by omega)
          rw [hd] at hc; cases hc
          rw [not_cons_dot hct] at hcc; cases hcc
      · rfl
    subst this
    exact ⟨rfl, by simp only [place_nat]; omega, rfl⟩
  · rw [if_neg hd, mapRes_ok] at hn
    have key : ∀ n : Nat, p + n ≤ q → (p + n = q ∨ p + n + 1 = q) → 0 < n →
        List.Forall₂ (fun i e => (do
          let c ← strAt w (p + i)
          let r : Int := if i + 1 = n then q else ((p + i + 1 : Nat) : Int)
          pure (⟨((p + i : Nat) : Int), r, letterName (← initConsSound c) (← initConsClass c) r⟩ : Entry Syl)) =
            Res.ok e) (List.range n) new → Chain p q new := by
      intro n h1 h2 h3 hF
      rw [List.range_eq_range'] at hF
      have gen : ∀ (k i : Nat) (l : List (Entry Syl)), k + i = n → 0 < k →
          List.Forall₂ (fun i e => (do
          let c ← strAt w (p + i)
          let r : Int := if i + 1 = n then q else ((p + i + 1 : Nat) : Int)
          pure (⟨((p + i : Nat) : Int), r, letterName (← initConsSound c) (← initConsClass c) r⟩ : Entry Syl)) =
            Res.ok e) (List.range' i k) l → Chain ((p + i : Nat) : Int) q l := by
        intro k
        induction k with
        | zero => intro i l _ h; omega
        | succ k ih =>
          intro i l hk _ hF
          rw [List.range'_succ] at hF
          cases hF with
          | @cons _ e _ l hh ht =>
          simp only [bind_eq_ok, pure_eq, Res.ok.injEq] at hh
          obtain ⟨c, -, snd, -, cls, -, rfl⟩ := hh
          rcases Nat.eq_zero_or_pos k with rfl | hkp
          · cases ht
            rw [if_pos (by omega)]
            exact ⟨rfl, by simp only [place_nat]; omega, rfl⟩
          · rw [if_neg (by omega)]
            exact ⟨rfl, by simp only [place_nat]; omega, ih (i + 1) l (by omega) hkp ht⟩
      have := gen n 0 new (by omega) h3 hF
      simpa using this
    refine key _ ?_ ?_ ?_ hn
    · have := ha.lt; split <;> omega
    · have := ha.lt; split <;> omega
    · have hlt := ha.lt
      split
      · rename_i hq
        rcases ha.shape with ⟨n, hn, rfl, -, -⟩ | ⟨rfl, -, c, hc, hcc⟩
        · cases n with
          | zero => simp only [Nat.add_zero, Nat.add_sub_cancel] at hq; exact absurd hq hd
          | succ n => omega
        · rw [Nat.add_sub_cancel] at hq
          exact absurd hq hd
      · omega

theorem abbrEdges_fact (hct : ct.Ok) {p q t : Nat} {new} (hst : IsStop ct w brk p t) (ha : IsAbbr ct w p t q)
    (hn : abbrEdges w p q = .ok new) : ∀ x ∈ new, Fact ct w brk x := by
  have hchain := abbrEdges_chain hct ha hn
  unfold abbrEdges at hn
  by_cases hd : w[p]? = some ch!"."
  · rw [if_pos hd] at hn
    cases hn
    have : q = p + 1 := by
      rcases ha.shape with ⟨n, hn, rfl, hc, -⟩ | ⟨rfl, -⟩
      · cases n with
        | zero => rfl
        | succ n =>
          obtain ⟨c, hc, hcc⟩ := hc p le_rfl (by omega)
          rw [hd] at hc; cases hc
          rw [not_cons_dot hct] at hcc; cases hcc
      · rfl
    subst this
    intro x hx
    rw [List.mem_singleton] at hx
    subst hx
    push_cast
    exact .dot hd
  · rw [if_neg hd, mapRes_ok] at hn
    intro x hx
    obtain ⟨h1, h2, h3⟩ := hchain.mem hx
    rw [place_nat] at h1 h3
    obtain ⟨i, hir, hi⟩ := forall₂_mem_right hn hx
    simp only [bind_eq_ok, pure_eq, Res.ok.injEq] at hi
    obtain ⟨c, hc, snd, hsnd, cls, -, hx'⟩ := hi
    have hc : w[p + i]? = some c := by
      unfold strAt at hc
      cases h : w[p + i]? <;> rw [h] at hc <;> cases hc
      rfl
    rw [List.mem_range] at hir
    have hcons : ct.isCons c = true := by
      rcases ha.shape with ⟨n, -, rfl, hco, hdot⟩ | ⟨rfl, -, c', hc', hcc⟩
      · rw [Nat.add_sub_cancel, if_pos hdot] at hir
        obtain ⟨c', hc', hcc⟩ := hco (p + i) (by omega) (by omega)
        rw [hc] at hc'; cases hc'
        exact hcc
      · have : i = 0 := by split at hir <;> omega
        subst this
        rw [Nat.add_zero, hc'] at hc; cases hc
        exact hcc
    have hne : snd ≠ .INVALID := by
      have := initConsSound_sat hct hcons
      rw [hsnd] at this; exact this
    refine .syl ?_ (within_of_bounds hst ha.le h1 h2 h3)
    rw [← hx']
    exact ⟨rfl, hne, show SC.NONE ∈ Spec.clusters by decide, show VW.AUU ∈ Spec.vowels by decide,
      by simp only [letterName]; split <;> simp⟩

/-! ## Derivations -/

theorem plain_dot {p t : Nat} (hst : IsStop ct w brk p t) (hpl : Plain ct w look p t) (hd : w[p]? = some ch!".") :
    0 < p ∧ w[p - 1]? ≠ some ch!"." ∧ w[p - 1]? ≠ some ch!" " := by
  have hno : ¬ (p = 0 ∨ w[p - 1]? = some ch!" " ∨ w[p - 1]? = some ch!".") := by
    intro h
    exact hpl.2 ⟨p + 1, h, hst.lt, .inl ⟨0, by omega, rfl, by omega, hd⟩⟩
  refine ⟨?_, fun h => hno (.inr (.inr h)), fun h => hno (.inr (.inl h))⟩
  rcases Nat.eq_zero_or_pos p with h | h
  · exact absurd (.inl h) hno
  · exact h

theorem token_cons (ct : CType) (w : U16Str) {i c : Nat} (hc : w[i]? = some c) (h : ct.isCons c = true) : Token ct w i :=
  ⟨c, hc, by simp [isThaiTokenChar, isWordChar, h]⟩

theorem otherLV_cons {p t : Nat} {l : Bool} {ems e} (h : parseOtherLV ct w p t l = .ok ems) (he : e ∈ ems) :
    Token ct w (p + 1) := by
  unfold parseOtherLV at h
  simp only [bind_eq_ok] at h
  obtain ⟨ldv, -, ps, hps, h⟩ := h
  unfold matchInitCons at hps
  rw [bind_eq_ok] at hps
  obtain ⟨c, hc, hps⟩ := hps
  have hc : w[p + 1]? = some c := by
    unfold strAt at hc
    cases hw : w[p + 1]? <;> rw [hw] at hc <;> cases hc
    rfl
  by_cases hcc : ct.isCons c = true
  · exact token_cons ct w hc hcc
  · rw [if_pos (by simpa using hcc)] at hps
    cases hps
    cases h
    cases he

theorem grammar_token (hct : ct.Ok) {p t c : Nat} {l : Bool} {ems e} (hst : IsStop ct w brk p t) (hc : w[p]? = some c)
    (hg : grammar ct w p t l c = .ok ems) (he : e ∈ ems) : Token ct w (e.pos - 1) := by
  obtain ⟨h, -⟩ := grammar_ok hct hst.lt hst.le hg _ he
  have h1 := h.lo
  have h2 := h.hi
  by_cases hle : e.pos ≤ t
  · exact hst.tok _ (by omega) (by omega)
  · unfold reach at h2
    split at h2
    · rename_i hr
      have : e.pos - 1 = p + 1 := by omega
      rw [this]
      unfold grammar at hg
      have h3 : ¬ ct.isCons c = true := by
        intro hx
        have := hct.cons _ hx
        have := hct.ld _ hr.1
        omega
      rw [if_neg h3, if_neg hr.2.1, if_pos hr.1] at hg
      exact otherLV_cons hg he
    · omega

/-- What every derivation satisfies. -/
structure DInv (ct : CType) (w : U16Str) (brk : List Int) (c : Config) : Prop where
  chain : Chain 0 c.pos c.edges
  bnd : c.pos = 0 ∨ Token ct w (c.pos - 1) ∨ Token ct w c.pos ∨ c.pos = w.length
  fact : ∀ e ∈ c.edges, Fact ct w brk e ∨ Stretched ct w brk e
  ends : ∀ e ∈ c.edges, EndsAt e

theorem step_inv (hct : ct.Ok) (hg : GoodLook look) {c c' : Config} (h : DInv ct w brk c)
    (hs : Step ct w look brk c c') : DInv ct w brk c' := by
  have app : ∀ {p q : Nat} {l l' : Bool} {es new : List (Entry Syl)}, DInv ct w brk ⟨p, l, es⟩ → Chain p q new →
      (Token ct w (q - 1) ∨ Token ct w q ∨ q = w.length) → (∀ x ∈ new, Fact ct w brk x) → (∀ x ∈ new, EndsAt x) → DInv ct w brk ⟨q, l', es ++ new⟩ := by
    intro p q l l' es new h h1 hb h2 h3
    refine ⟨h.chain.append h1, .inr hb, fun e he => ?_, fun e he => ?_⟩
    · exact (List.mem_append.mp he).elim (h.fact e) fun h => .inl (h2 e h)
    · exact (List.mem_append.mp he).elim (h.ends e) (h3 e)
  cases hs with
  | @gap p l es q hgap =>
    have hlt := hgap.lt
    refine app h ⟨rfl, ?_, rfl⟩ (.inr (hgap.fin.symm)) ?_ ?_
    · simp only [place_nat]; omega
    · intro x hx
      rw [List.mem_singleton] at hx
      subst hx
      refine .gap hgap ?_
      rcases h.bnd with hb | hb | hb | hb
      · exact .inl hb
      · exact .inr hb
      · exact absurd hb (hgap.no p le_rfl hlt)
      · have := hgap.le; simp only at hb; omega
    · intro x hx; rw [List.mem_singleton] at hx; subst hx; rfl
  | dict hst hm hmk hstr =>
    obtain ⟨h1, h2⟩ := dictEdges hst hm hg hmk hstr
    obtain ⟨m1, m2, -⟩ := mem_dictAt hm
    exact app h h1 (.inl (hst.tok _ (by omega) (by omega))) h2 (pathEdges_ends _ _)
  | abbr hst hd ha hn =>
    have h1 := ha.lt
    have h2 := ha.le
    exact app h (abbrEdges_chain hct ha hn) (.inl (hst.tok _ (by omega) (by omega))) (abbrEdges_fact hct hst ha hn) (abbrEdges_ends hn)
  | syl hst hpl hc hgr he =>
    obtain ⟨h1, -⟩ := grammar_ok hct hst.lt hst.le hgr _ he
    exact app h (sylEdges_chain h1) (.inl (grammar_token hct hst hc hgr he)) (sylEdges_fact hst hc h1) (sylEdges_ends _ _)
  | @dot p l es t hst hpl hdot =>
    obtain ⟨p1, p2, p3⟩ := plain_dot hst hpl hdot
    have hne : es ≠ [] := by
      rintro rfl
      have : (0 : Int) = (p : Int) := h.chain
      omega
    refine ⟨?_, .inr (.inl ?_), ?_, ?_⟩
    rotate_left
    · rw [Nat.add_sub_cancel]; exact hst.token
    rotate_right
    · have := h.chain.stretch hne
      simp only at this ⊢
      push_cast
      exact this
    · intro e he
      obtain ⟨x, hx, rfl⟩ := List.mem_map.mp he
      unfold stretch
      by_cases ht : x.target = p
      · rw [if_pos ht]
        right
        rcases h.fact x hx with hf | ⟨e0, p', -, -, -, hd', -, -, rfl⟩
        · exact ⟨x, p, hf, ht, p1, hdot, p2, p3, rfl⟩
        · simp only at ht
          have : p' = p - 1 := by omega
          rw [this] at hd'
          exact absurd hd' p2
      · rw [if_neg ht]; exact h.fact x hx
    · intro e he
      obtain ⟨x, hx, rfl⟩ := List.mem_map.mp he
      unfold stretch
      by_cases ht : x.target = p
      · rw [if_pos ht]; rfl
      · rw [if_neg ht]; exact h.ends x hx

theorem deriv_inv (hct : ct.Ok) (hg : GoodLook look) {c : Config} (h : Deriv ct w look brk c) :
    DInv ct w brk c := by
  induction h with
  | refl => exact ⟨rfl, .inl rfl, fun e h => (by cases h), fun e h => (by cases h)⟩
  | tail _ hs ih => exact step_inv hct hg ih hs

theorem deriv_pos (hct : ct.Ok) {c : Config} (h : Deriv ct w look brk c) : c.pos ≤ w.length := by
  induction h with
  | refl => exact Nat.zero_le _
  | tail _ hs ih => exact (hs.lt hct).2

theorem reading_inv (hct : ct.Ok) (hg : GoodLook look) {es} (h : Reading ct w look brk es) :
    DInv ct w brk ⟨w.length, false, es⟩ := by
  obtain ⟨c, hc, hl, rfl⟩ := h
  have h := deriv_inv hct hg hc
  have := deriv_pos hct hc
  have hp : c.pos = w.length := by omega
  exact ⟨hp ▸ h.chain, .inr (.inr (.inr rfl)), h.fact, h.ends⟩

end
end Thpronun
