import Verif.Spec.Opaque
import Verif.Lemmas.Retone

/-! # Lemmas on texts that differ in foreign characters only -/

namespace Thpronun
open Res Spec DAG

variable {ct : CType} {w w' : U16Str} {t : Nat}

/-- A syllable is read by the characters of its token alone. -/
theorem spelled_local {p : Nat} (hlt : p < t) (h : ∀ i, p ≤ i → i < t → w[i]? = w'[i]?)
    (hnext : ∀ c, ct.isCons c = true → (w[t]? = some c ↔ w'[t]? = some c)) (l : Bool) (o : Onset) (r : Rime) :
    Spelled ct w t p l o r ↔ Spelled ct w' t p l o r := by
  have key : ∀ {z : U16Str}, (∀ i, p ≤ i → i < t → z[i]? = w'[i]?) → (∀ c, ct.isCons c = true → (z[t]? = some c ↔ w'[t]? = some c)) →
      ∀ (o : Onset) (r : Rime), Spelled ct z (t - p + p) (0 + p) l (o.shift p) (r.shift p) ↔ Spelled ct (w'.drop p) (t - p) 0 l o r := by
    intro z hz hz' o r
    refine spelled_shift (fun i c => ?_) ?_ (by omega) (fun x _ _ _ ht c hc => ?_) l o r
    · unfold At
      rw [List.getElem?_drop, Nat.add_comm p i]
      constructor
      · exact fun ⟨a, b⟩ => ⟨by omega, by rw [← hz (i + p) (by omega) (by omega)]; exact b⟩
      · exact fun ⟨a, b⟩ => ⟨by omega, by rw [hz (i + p) (by omega) (by omega)]; exact b⟩
    · rw [List.getElem?_drop, Nat.zero_add, Nat.add_zero]
      exact hz p (Nat.le_refl _) hlt
    · rw [List.getElem?_drop, show 0 + 1 + p = t by omega, show p + (0 + 1) = t by omega]
      exact hz' c hc
  have sh : ∀ {z : U16Str}, Spelled ct z t p l o r → ∃ o' r', o = Onset.shift p o' ∧ r = Rime.shift p r' := by
    intro z hz
    obtain ⟨k1, k2⟩ := spelled_ge hz
    exact ⟨{ o with stop := o.stop - p }, { r with stop := r.stop - p },
      by simp only [Onset.shift]; rw [Nat.sub_add_cancel (by omega)], by simp only [Rime.shift]; rw [Nat.sub_add_cancel (by omega)]⟩
  have e : t - p + p = t := by omega
  constructor
  · intro hs
    obtain ⟨o', r', rfl, rfl⟩ := sh hs
    have := (key h hnext o' r').mp (by rw [e, Nat.zero_add]; exact hs)
    have := (key (z := w') (fun _ _ _ => rfl) (fun _ _ => Iff.rfl) o' r').mpr this
    rwa [e, Nat.zero_add] at this
  · intro hs
    obtain ⟨o', r', rfl, rfl⟩ := sh hs
    have := (key (z := w') (fun _ _ _ => rfl) (fun _ _ => Iff.rfl) o' r').mp (by rw [e, Nat.zero_add]; exact hs)
    have := (key h hnext o' r').mpr this
    rwa [e, Nat.zero_add] at this

/-! ## Literal text -/

theorem piece_length (w : U16Str) (p q : Nat) : (piece w p q).length = min (q - p) (w.length - p) := by
  unfold piece
  rw [List.length_take, List.length_drop]

theorem withText_plain (w : U16Str) (a : Int) {s : Syl} (h : s.literal = []) : withText w a s = s := by
  unfold withText piece
  rw [h, List.length_nil, Nat.add_zero, Nat.sub_self, List.take_zero, ← h]

theorem withText_back (hlen : w.length = w'.length) {a : Int} {s : Syl} (h : withText w a s = s) :
    withText w a (withText w' a s) = s := by
  have hl : (withText w' a s).literal.length = s.literal.length := by
    conv_rhs => rw [← h]
    unfold withText
    rw [piece_length, piece_length, hlen]
  conv_rhs => rw [← h]
  unfold withText at hl ⊢
  dsimp only at hl ⊢
  rw [hl]

/-- An edge with the literal text of `w`. -/
def reText (w : U16Str) (e : Entry Syl) : Entry Syl := ⟨e.key, e.target, withText w e.key e.val⟩

theorem reText_stretch (p : Nat) (e : Entry Syl) : reText w (stretch p e) = stretch p (reText w e) := by
  unfold stretch reText
  dsimp only
  split <;> rfl

theorem reText_plain {e : Entry Syl} (h : e.val.literal = []) : reText w e = e := by
  unfold reText
  rw [withText_plain w _ h]

theorem reText_map_plain {es : List (Entry Syl)} (h : ∀ e ∈ es, e.val.literal = []) : es.map (reText w) = es := by
  conv_rhs => rw [← List.map_id es]
  exact List.map_congr_left fun e he => reText_plain (h e he)

theorem spelled_plain {p : Nat} {l : Bool} {o : Onset} {r : Rime} (h : Spelled ct w t p l o r) :
    ∀ e ∈ spelledEdges p o r, e.val.literal = [] := by
  have hpre : ∀ x, o.pre = some x → x.literal = [] := by
    have on : ∀ {i}, OnsetAt ct w t i l o → ∀ x, o.pre = some x → x.literal = [] := by
      intro i h x hx
      obtain ⟨c, snd, cls, -, -, rfl, -⟩ := onset_pre h hx
      rfl
    intro x hx
    obtain ⟨c, -, ⟨-, ⟨h, -⟩ | ⟨h, -⟩⟩ | ⟨-, -, h, -⟩ | ⟨-, -, h, -⟩ | ⟨-, rfl, -⟩⟩ := h
    · exact on h x hx
    · obtain ⟨c, snd, cls, -, -, ⟨rfl, -⟩ | ⟨rfl, -⟩⟩ := whole_pre h hx <;> rfl
    · exact on h x hx
    · exact on h x hx
    · cases hx
  intro e he
  unfold spelledEdges at he
  cases hp : o.pre with
  | none =>
    rw [hp] at he
    cases List.mem_singleton.mp he
    rfl
  | some x =>
    rw [hp] at he
    rcases List.mem_cons.mp he with rfl | he
    · exact hpre x hp
    · cases List.mem_singleton.mp he
      rfl

theorem word_plain {p : Nat} {n : Int} {str : SylString} (h : ∀ s ∈ str, s.literal = []) : ∀ e ∈ wordEdges p n str, e.val.literal = [] := by
  induction str generalizing n with
  | nil => intro e he; cases he
  | cons s ss ih =>
    intro e he
    rcases List.mem_cons.mp he with rfl | he
    · exact h s (List.mem_cons_self ..)
    · exact ih (fun s hs => h s (List.mem_cons_of_mem _ hs)) e he

theorem data_plain {data : Str} {strs : List (List Syl)} (h : DataIs data strs) {str : List Syl} (hs : str ∈ strs) :
    ∀ s ∈ str, s.literal = [] := by
  obtain ⟨parts, -, -, -, hf⟩ := h
  have key : ∀ {ps : List Str} {str : List Syl}, List.Forall₂ (fun d s => SylIs d (-1) s) ps str → ∀ s ∈ str, s.literal = [] := by
    intro ps str h
    induction h with
    | nil => intro s hs; cases hs
    | cons h _ ih =>
      intro s hs
      rcases List.mem_cons.mp hs with rfl | hs
      · exact h.literal
      · exact ih s hs
  induction hf with
  | nil => cases hs
  | cons h _ ih =>
    rcases List.mem_cons.mp hs with rfl | hs
    · exact key h
    · exact ih hs

theorem names_plain {q : Nat} {e : Int} {cs : U16Str} {new : List (Entry Syl)} (h : IsNames q e cs new) :
    ∀ x ∈ new, x.val.literal = [] := by
  intro x hx
  obtain ⟨i, hi, rfl⟩ := List.getElem_of_mem hx
  obtain ⟨-, -, snd, cls, -, -, h3⟩ := h.2 i (cs[i]'(by rw [← h.1]; exact hi)) new[i] (List.getElem?_eq_getElem (by rw [← h.1]; exact hi)) (List.getElem?_eq_getElem hi)
  rw [h3]

/-! ## The two texts -/

structure Twins (ct : CType) (w w' : U16Str) : Prop where
  ok : ct.Ok
  ex : ForeignExchange ct w w'

namespace Twins
variable (X : Twins ct w w')
include X

theorem len : w.length = w'.length := X.ex.1

theorem symm : Twins ct w' w := ⟨X.ok, X.ex.1.symm, fun i => (X.ex.2 i).imp Eq.symm fun ⟨c, c', h1, h2, h3, h4⟩ => ⟨c', c, h2, h1, h4, h3⟩⟩

theorem textAt {i : Nat} (h : TextAt ct w i) : w[i]? = w'[i]? := by
  obtain ⟨c, h1, h2⟩ := h
  rcases X.ex.2 i with e | ⟨c1, -, k1, -, k2, -⟩
  · exact e
  · rw [h1] at k1; cases k1; exact absurd h2 k2.1

theorem textAt_iff {i : Nat} : TextAt ct w i ↔ TextAt ct w' i := by
  have key : ∀ {w w' : U16Str}, Twins ct w w' → TextAt ct w i → TextAt ct w' i := by
    intro w w' X h
    have := X.textAt h
    unfold TextAt at h ⊢
    rwa [← this]
  exact ⟨key X, key X.symm⟩

theorem keep {i c : Nat} (hc : ¬ Foreign ct c) (h : w[i]? = some c) : w'[i]? = some c := by
  rcases X.ex.2 i with e | ⟨c1, -, k1, -, k2, -⟩
  · rw [← e]; exact h
  · rw [h] at k1; cases k1; exact absurd k2 hc

theorem kcons {i c : Nat} (hc : ct.isCons c = true) (h : w[i]? = some c) : w'[i]? = some c := X.keep (fun h => h.1 (.inl hc)) h

theorem kdot {i : Nat} (h : w[i]? = some ch!".") : w'[i]? = some ch!"." :=
  X.keep (fun h => h.1 (.inr (.inr (.inr (by decide))))) h

theorem kspace {i : Nat} (h : w[i]? = some ch!" ") : w'[i]? = some ch!" " := X.keep (fun h => h.2.2 rfl) h

theorem startAt {n i : Nat} (h : StartAt ct w n i) : StartAt ct w' n i := by
  obtain ⟨c, ⟨h1, h2⟩, h3⟩ := h
  exact ⟨c, ⟨h1, X.keep (fun h => h3.elim (fun k => h.1 (.inl k)) (fun k => by rw [h.2.1] at k; cases k)) h2⟩, h3⟩

theorem tokenTo_iff {brk : List Int} {p t : Nat} : TokenTo ct w brk p t ↔ TokenTo ct w' brk p t := by
  unfold TokenTo nextBreak
  simp only [X.textAt_iff, X.len]

theorem otherTo_iff {p q : Nat} : OtherTo ct w p q ↔ OtherTo ct w' p q := by
  unfold OtherTo
  simp only [X.textAt_iff, X.len]

theorem token_eq {brk : List Int} {p t : Nat} (h : TokenTo ct w brk p t) {i : Nat} (h1 : p ≤ i) (h2 : i < t) : w[i]? = w'[i]? :=
  X.textAt (h.2.2.1 i h1 h2)

theorem wordAt {look : List Nat → Option Str} {brk : List Int} {p q : Nat} {data : Str} (ht : TokenTo ct w brk p t)
    (h : WordAt ct w look p t q data) : WordAt ct w' look p t q data := by
  obtain ⟨h1, h2, h3, h4, h5⟩ := h
  refine ⟨h1, X.len ▸ h2, ?_, h4, h5.imp_right fun h => ?_⟩
  · rw [← Exchanged.piece_eq fun i a b => X.token_eq ht a (by omega)]
    exact h3
  · rw [← X.len]
    exact X.startAt h

theorem isAbbr {p e : Nat} (h : IsAbbr ct w p t e) : IsAbbr ct w' p t e where
  start := h.start.imp_right (Or.imp X.kspace X.kdot)
  le := h.le
  shape := by
    have hc : ∀ {i : Nat}, (∃ c, w[i]? = some c ∧ ct.isCons c = true) → ∃ c, w'[i]? = some c ∧ ct.isCons c = true :=
      fun ⟨c, h1, h2⟩ => ⟨c, X.kcons h2 h1, h2⟩
    rcases h.shape with ⟨n, h1, h2, h3, h4⟩ | ⟨h1, h2, h3⟩
    · exact .inl ⟨n, h1, h2, fun i a b => hc (h3 i a b), X.kdot h4⟩
    · exact .inr ⟨h1, h2, hc h3⟩

theorem spelled {brk : List Int} {p : Nat} (ht : TokenTo ct w brk p t) {l : Bool} {o : Onset} {r : Rime} (h : Spelled ct w t p l o r) :
    Spelled ct w' t p l o r :=
  (spelled_local ht.1 (fun i a b => X.token_eq ht a b) (fun c hc => ⟨X.kcons hc, X.symm.kcons hc⟩) l o r).mp h

end Twins

/-- The partial reading with the literal text of `w`. -/
def reConfig (w : U16Str) (c : Config) : Config := ⟨c.pos, c.linked, c.edges.map (reText w)⟩

section
variable {look : List Nat → Option Str} {brk : List Int} 

/-- A step in the one text is a step in the other; its literal text is that of the text. -/
theorem twin_rule (X : Twins ct w w') {c c1 : Config} (h : Rule ct w look brk c c1) :
    Rule ct w' look brk (reConfig w' c) (reConfig w' c1) ∧ (c.edges.map (reText w) = c.edges → c1.edges.map (reText w) = c1.edges) := by
  have hno : ∀ {p t}, TokenTo ct w brk p t → (∀ q data, ¬ WordAt ct w look p t q data) → ∀ q data, ¬ WordAt ct w' look p t q data :=
    fun ht h q data hw => h q data (X.symm.wordAt (X.tokenTo_iff.mp ht) hw)
  have hna : ∀ {p t : Nat}, (∀ q, ¬ IsAbbr ct w p t q) → ∀ q, ¬ IsAbbr ct w' p t q := fun h q hw => h q (X.symm.isAbbr hw)
  have plain : ∀ {c : Config} {q : Nat} {l : Bool} {new : List (Entry Syl)}, (∀ e ∈ new, e.val.literal = []) →
      Rule ct w' look brk (reConfig w' c) ⟨q, l, (reConfig w' c).edges ++ new⟩ →
      Rule ct w' look brk (reConfig w' c) (reConfig w' ⟨q, l, c.edges ++ new⟩) ∧
      (c.edges.map (reText w) = c.edges → (c.edges ++ new).map (reText w) = c.edges ++ new) := by
    intro c q l new hn hr
    refine ⟨?_, fun h => by rw [List.map_append, h, reText_map_plain hn]⟩
    unfold reConfig at hr ⊢
    rw [List.map_append, reText_map_plain hn]
    exact hr
  cases h with
  | @other p l es q h =>
    have hl : ∀ z : U16Str, z.length = w.length → reText z ⟨p, q, plainText q (piece w p q)⟩ = ⟨p, q, plainText q (piece z p q)⟩ := by
      intro z hz
      have hq := h.2.1
      have hp := h.1
      unfold reText withText plainText
      dsimp only
      rw [piece_length, Int.toNat_natCast, show p + min (q - p) (w.length - p) = q by omega]
    refine ⟨?_, fun h => by rw [List.map_append, h, List.map_singleton, hl w rfl]⟩
    unfold reConfig
    rw [List.map_append, List.map_singleton, hl w' X.len.symm]
    exact .other (X.otherTo_iff.mp h)
  | word h1 h2 h3 h4 =>
    exact plain (c := ⟨_, _, _⟩) (word_plain (data_plain h3 h4)) (.word (X.tokenTo_iff.mp h1) (X.wordAt h1 h2) h3 h4)
  | @abbr p l es t q new h1 h2 h3 h4 =>
    have hnames : AbbrNames w' p q new := by
      have hd : w[p]? = some ch!"." ↔ w'[p]? = some ch!"." := ⟨X.kdot, X.symm.kdot⟩
      unfold AbbrNames at h4 ⊢
      rw [← Exchanged.piece_eq fun i a b => X.token_eq h1 a (by have := h3.le; omega)]
      exact h4.imp (And.imp_left hd.mp) (And.imp_left (mt hd.mpr))
    have hr : Rule ct w' look brk (reConfig w' ⟨p, l, es⟩) ⟨q, false, (reConfig w' ⟨p, l, es⟩).edges ++ new⟩ :=
      .abbr (X.tokenTo_iff.mp h1) (hno h1 h2) (X.isAbbr h3) hnames
    rcases h4 with ⟨hp, rfl⟩ | ⟨-, cs, -, hn⟩
    · have hl : ∀ {z : U16Str}, z[p]? = some ch!"." → [(⟨p, q, plainText q u!"."⟩ : Entry Syl)].map (reText z) = [⟨p, q, plainText q u!"."⟩] := by
        intro z hz
        rw [List.map_singleton]
        unfold reText withText plainText piece
        dsimp only
        rw [Int.toNat_natCast, List.length_singleton, Nat.add_sub_cancel_left]
        obtain ⟨hlt, hz⟩ := List.getElem?_eq_some_iff.mp hz
        rw [List.drop_eq_getElem_cons hlt, hz]
        rfl
      refine ⟨?_, fun h => by rw [List.map_append, h, hl hp]⟩
      unfold reConfig at hr ⊢
      rw [List.map_append, hl (X.kdot hp)]
      exact hr
    · exact plain (c := ⟨_, _, _⟩) (names_plain hn) hr
  | syl h1 h2 h3 h4 =>
    exact plain (c := ⟨_, _, _⟩) (spelled_plain h4) (.syl (X.tokenTo_iff.mp h1) (hno h1 h2) (hna h3) (X.spelled h1 h4))
  | @dot p l es t h1 h2 h3 h4 =>
    have hm : ∀ z : U16Str, (es.map (stretch p)).map (reText z) = (es.map (reText z)).map (stretch p) := by
      intro z
      rw [List.map_map, List.map_map]
      exact List.map_congr_left fun e _ => reText_stretch p e
    refine ⟨?_, fun h => by rw [hm, h]⟩
    unfold reConfig
    rw [hm]
    exact .dot (X.tokenTo_iff.mp h1) (hno h1 h2) (hna h3) (X.kdot h4)

theorem twin_deriv (X : Twins ct w w') {c : Config} (h : RuleDeriv ct w look brk c) :
    RuleDeriv ct w' look brk (reConfig w' c) ∧ c.edges.map (reText w) = c.edges := by
  induction h with
  | refl => exact ⟨.refl, rfl⟩
  | tail _ h ih => exact ⟨ih.1.tail (twin_rule X h).1, (twin_rule X h).2 ih.2⟩

theorem twin_reading (X : Twins ct w w') {es : List (Entry Syl)} (h : RuleReading ct w look brk es) :
    RuleReading ct w' look brk (es.map (reText w')) ∧ es.map (reText w) = es := by
  obtain ⟨c, h1, h2, rfl⟩ := h
  exact ⟨⟨reConfig w' c, (twin_deriv X h1).1, X.len ▸ h2, rfl⟩, (twin_deriv X h1).2⟩

theorem twin_deadEnd (X : Twins ct w w') {c : Config} (h : DeadEnd ct w look brk c) : DeadEnd ct w' look brk (reConfig w' c) := by
  obtain ⟨h1, h2, ⟨x, h3, h4, h5⟩, t, h6, h7⟩ := h
  exact ⟨(twin_deriv X h1).1, by rw [← X.len]; exact h2,
    ⟨x, X.keep (fun h => by rw [h.2.1] at h4; cases h4) h3, h4, h5⟩, t, X.tokenTo_iff.mp h6,
    fun q data hw => h7 q data (X.symm.wordAt (X.tokenTo_iff.mp h6) hw)⟩

theorem withText_ceq (hlen : w.length = w'.length) {a : Int} {x y : Syl} (h : ceq x y = true) (hx : withText w a x = x) :
    ceq (withText w' a x) (withText w' a y) = true ∧ withText w a y = y := by
  obtain ⟨h1, h2⟩ := (Syl.eq_iff x y).mp h
  have hl : x.literal = piece w a.toNat (a.toNat + x.literal.length) := congrArg Syl.literal hx.symm
  have hy : withText w a y = y := by
    unfold withText
    rw [← h1, ← hl, h1]
  refine ⟨(Syl.eq_iff _ _).mpr ⟨?_, fun hn => ?_⟩, hy⟩
  · unfold withText
    rw [h1]
  · refine h2 ?_
    have hk : (withText w' a x).literal.length = x.literal.length := by
      conv_rhs => rw [hl]
      unfold withText
      rw [piece_length, piece_length, hlen]
    unfold Syl.isLiteral at hn ⊢
    rw [← hk]
    exact hn

theorem twin_edge (X : Twins ct w w') {a b : Int} {x : Syl} (h : ReadEdge ct w look brk a b x) :
    ReadEdge ct w' look brk a b (withText w' a x) ∧ withText w a x = x := by
  obtain ⟨es, h1, e, h2, rfl, rfl, h5⟩ := h
  obtain ⟨k1, k2⟩ := twin_reading X h1
  have ke : reText w e = e := by
    have := List.map_inj_left.mp (k2.trans (List.map_id es).symm) e h2
    exact this
  have kv : withText w e.key e.val = e.val := congrArg Entry.val ke
  obtain ⟨j1, j2⟩ := withText_ceq X.len h5 kv
  exact ⟨⟨_, k1, reText w' e, List.mem_map_of_mem h2, rfl, rfl, j1⟩, j2⟩

theorem twin_route (X : Twins ct w w') {a b : Int} {s : List Syl} (h : Route (ReadEdge ct w look brk) a b s) :
    Route (ReadEdge ct w' look brk) a b (withTexts w' a s) ∧ withTexts w a (withTexts w' a s) = s := by
  induction s generalizing a with
  | nil => exact ⟨h, rfl⟩
  | cons x s ih =>
    obtain ⟨k1, k2⟩ := twin_edge X h.1
    obtain ⟨j1, j2⟩ := ih h.2
    refine ⟨⟨k1, j1⟩, ?_⟩
    show withText w a (withText w' a x) :: withTexts w x.endPos (withTexts w' x.endPos s) = x :: s
    rw [j2, withText_back X.len k2]

theorem twin_same (X : Twins ct w w') {a b : Int} {s s1 : List Syl} (h : Route (ReadEdge ct w look brk) a b s)
    (hs : SamePron s s1) : SamePron (withTexts w' a s) (withTexts w' a s1) := by
  induction hs generalizing a with
  | nil => exact .nil
  | cons hx _ ih =>
    refine .cons ⟨(withText_ceq X.len hx.1 (twin_edge X h.1).2).1, hx.2⟩ ?_
    rw [← hx.2]
    exact ih h.2

end

end Thpronun
