import Verif.Lemmas.ParserFacts
import Verif.Lemmas.Utf
import Verif.Props.Dag

/-! # Parser results and text: helper lemmas -/

namespace Thpronun
open Res Spec DAG

/-! ## Text boundaries -/

theorem fromBytes_ok {word : Str} {w : U16Str} : fromBytes word = .ok w ↔
    ∃ cs, (∀ c ∈ cs, isScalar c = true) ∧ word = enc8 cs ∧ w = enc16 cs := by
  unfold fromBytes
  constructor
  · intro h
    cases hd : utf8Decode word with
    | none => rw [hd] at h; cases h
    | some cs =>
      rw [hd] at h
      cases h
      obtain ⟨h1, h2⟩ := utf8Decode_inv _ _ hd
      exact ⟨cs, h1, h2.symm, rfl⟩
  · rintro ⟨cs, h1, rfl, rfl⟩
    have := utf8Decode_enc8 cs h1 []
    rw [List.append_nil] at this
    rw [this]
    simp [utf8Decode, enc16]

theorem toBytes_enc16 {cs : List Nat} (h : ∀ c ∈ cs, isScalar c = true) : toBytes (enc16 cs) = .ok (enc8 cs) := by
  have := utf16Decode_enc16 cs h []
  rw [List.append_nil] at this
  unfold toBytes
  rw [this]
  simp [utf16Decode, enc8]

/-- A position that is not inside a surrogate pair lies between two characters. -/
theorem cut (cs : List Nat) (h : ∀ c ∈ cs, isScalar c = true) (p : Nat) (hp : p ≤ (enc16 cs).length)
    (hb : ∀ x y, 0 < p → (enc16 cs)[p - 1]? = some x → (enc16 cs)[p]? = some y → x < 0xd800 ∨ y < 0xd800) :
    ∃ a b, cs = a ++ b ∧ (enc16 a).length = p := by
  induction cs generalizing p with
  | nil => exact ⟨[], [], rfl, by simpa using hp.antisymm (Nat.zero_le _) |>.symm⟩
  | cons c cs ih =>
    rcases Nat.eq_zero_or_pos p with rfl | hpos
    · exact ⟨[], _, rfl, rfl⟩
    have hlen : (utf16EncodeOne c).length ≤ p := by
      by_contra hlt
      unfold utf16EncodeOne at hlt
      split at hlt
      · simp at hlt; omega
      · rename_i hc
        have h1 : p = 1 := by simp at hlt; omega
        subst h1
        have := hb (0xd800 + (c - 0x10000) / 0x400) (0xdc00 + (c - 0x10000) % 0x400) Nat.one_pos
          (by simp [utf16EncodeOne, hc]) (by simp [utf16EncodeOne, hc])
        omega
    rw [enc16_cons, List.length_append] at hp
    obtain ⟨a, b, h1, h2⟩ := ih (fun x hx => h x (by simp [hx])) (p - (utf16EncodeOne c).length) (by omega) (by
      intro x y h0 hx hy
      refine hb x y hpos ?_ ?_
      · rw [enc16_cons, List.getElem?_append_right (by omega), ← hx]; congr 1; omega
      · rw [enc16_cons, List.getElem?_append_right (by omega), ← hy])
    exact ⟨c :: a, b, by rw [h1]; rfl, by rw [enc16_cons, List.length_append]; omega⟩

section
variable {ct : CType} {w : U16Str} {brk : List Int} {look : List Nat → Option Str}

theorem token_small (hct : ct.Ok) {i : Nat} (h : Token ct w i) {x : Nat} (hx : w[i]? = some x) : x < 0xd800 := by
  obtain ⟨c, hc, ht⟩ := h
  rw [hx] at hc; cases hc
  simp only [isThaiTokenChar, isWordChar, Bool.or_eq_true, decide_eq_true_eq] at ht
  rcases ht with ht | (((ht | ht) | ht) | ht) | ht
  · omega
  · have := hct.cons _ ht; omega
  · have := hct.vowel _ ht; omega
  · have := hct.tone _ ht; omega
  · rw [← ht]; decide
  · rw [← ht]; decide

/-- Positions next to a token character or at the ends of the text. -/
def Bound (ct : CType) (w : U16Str) (p : Nat) : Prop := p = 0 ∨ Token ct w (p - 1) ∨ Token ct w p ∨ p = w.length

theorem Bound.cut (hct : ct.Ok) {p : Nat} (h : Bound ct w p) {x y : Nat} (hp : 0 < p) (hx : w[p - 1]? = some x)
    (hy : w[p]? = some y) : x < 0xd800 ∨ y < 0xd800 := by
  rcases h with h | h | h | h
  · omega
  · exact .inl (token_small hct h hx)
  · exact .inr (token_small hct h hy)
  · rw [h, List.getElem?_eq_none (by omega)] at hy; cases hy

/-- A piece between two bounds is a piece of the text in characters. -/
theorem piece_enc (hct : ct.Ok) {cs : List Nat} (h : ∀ c ∈ cs, isScalar c = true) (hw : w = enc16 cs) {p q : Nat}
    (hpq : p ≤ q) (hq : q ≤ w.length) (hbp : Bound ct w p) (hbq : Bound ct w q) :
    ∃ a m b, cs = a ++ m ++ b ∧ (enc16 a).length = p ∧ piece w p q = enc16 m := by
  subst hw
  obtain ⟨a, r, rfl, ha⟩ := Thpronun.cut cs h p (by omega) fun x y h0 hx hy => hbp.cut hct h0 hx hy
  have hdrop : (enc16 (a ++ r)).drop p = enc16 r := by
    rw [enc16_append, ← ha, List.drop_left]
  have hidx : ∀ i, (enc16 r)[i]? = (enc16 (a ++ r))[p + i]? := by
    intro i; rw [← hdrop, List.getElem?_drop]
  rw [enc16_append, List.length_append, ha] at hq
  obtain ⟨m, b, rfl, hm⟩ := Thpronun.cut r (fun c hc => h c (by simp [hc])) (q - p) (by omega) fun x y h0 hx hy => by
    rw [hidx] at hx hy
    refine hbq.cut hct (by omega) ?_ ?_
    · rw [← hx]; congr 1; omega
    · rw [← hy]; congr 1; omega
  refine ⟨a, m, b, by simp, ha, ?_⟩
  unfold piece
  rw [hdrop, enc16_append, ← hm, List.take_left]

theorem gap_bound_left {p : Nat} (h : p = 0 ∨ Token ct w (p - 1)) : Bound ct w p := h.elim .inl fun h => .inr (.inl h)

theorem gap_bound_right {p q : Nat} (h : IsGap ct w p q) : Bound ct w q :=
  h.fin.elim (fun h => .inr (.inr (.inr h))) fun h => .inr (.inr (.inl h))

theorem token_dot {i : Nat} (h : w[i]? = some ch!".") : Token ct w i := ⟨_, h, by simp [isThaiTokenChar]⟩

theorem piece_one {p c : Nat} (h : w[p]? = some c) : piece w p (p + 1) = [c] := by
  unfold piece
  have hp : p < w.length := by
    by_contra hn
    rw [List.getElem?_eq_none (by omega)] at h; cases h
  rw [List.getElem?_eq_getElem hp] at h
  cases h
  rw [Nat.add_sub_cancel_left, List.drop_eq_getElem_cons hp]
  rfl

/-! ## Results with a single reading -/

/-- The path `p` carries the edges `es`. -/
def Carries (x e : Entry Syl) : Prop :=
  x.key = e.key ∧ x.target = e.target ∧ ceq x.val e.val = true ∧ x.val.endPos = e.target

theorem chain_key {p q : Int} {e x : Entry Syl} {es : List (Entry Syl)} (h : Chain p q (e :: es)) (hx : x ∈ e :: es)
    (hk : x.key = p) : x = e := by
  rcases List.mem_cons.mp hx with rfl | hx
  · rfl
  · have h1 := (h.2.2.mem hx).1
    have h2 := h.2.1
    rw [hk] at h1
    omega

theorem chain_split {p q : Int} {a b : List (Entry Syl)} (h : Chain p q (a ++ b)) : ∃ r, Chain p r a ∧ Chain r q b := by
  induction a generalizing p with
  | nil => exact ⟨p, rfl, h⟩
  | cons e a ih =>
    obtain ⟨r, h1, h2⟩ := ih h.2.2
    exact ⟨r, ⟨h.1, h.2.1, h1⟩, h2⟩

theorem acyclic_parse (hct : ct.Ok) (hg : GoodLook look) {dict} (hd : Holds dict look) {d : PronunDAG}
    (h : parseU16 ct w dict brk = .ok d) : Acyclic d := by
  refine acyclic_of_rank place fun e he => ?_
  exact (edge_inv hct hg hd h he).2.1

theorem single_reading (hct : ct.Ok) (hg : GoodLook look) {dict} (hd : Holds dict look) {d : PronunDAG}
    (h : parseU16 ct w dict brk = .ok d) {es0 : List (Entry Syl)} (hr : Reading ct w look brk es0)
    (hu : ∀ es, Reading ct w look brk es → es = es0) (hne : es0 ≠ []) :
    ∃ path, PronunDAG.sylStrings d 0 = .ok [path.map Entry.val] ∧ List.Forall₂ Carries path es0 := by
  obtain ⟨hok, -⟩ := parseU16_correct hct hd h
  have hch : Chain 0 w.length es0 := (reading_inv hct hg hr).chain
  have hac := acyclic_parse hct hg hd h
  -- the edges of the result are those of `es0`
  have hed : ∀ e ∈ d.mFrom, ∃ x ∈ es0, Carries e x := by
    intro e he
    obtain ⟨es, e', hr', he', h1, h2, h3⟩ := edge_reading hct hd h he
    rw [hu es hr'] at he'
    exact ⟨e', he', h1.symm, h2.symm, LawfulCppEq.symm h3, by rw [h2]; exact hok.ends e he⟩
  have hden : ∀ x ∈ es0, ∃ e ∈ d.outEdges x.key, e.target = x.target ∧ ceq e.val x.val = true := fun x hx =>
    reading_edge hct hd h hr hx
  have hpath : ∀ (p : List (Entry Syl)) (n : Int), MaxPath d n p → ∀ (a b : List (Entry Syl)), es0 = a ++ b →
      Chain n w.length b → List.Forall₂ Carries p b := by
    intro p n hp
    induction hp with
    | @last n e he hend =>
      intro a b hab hb
      obtain ⟨hm, hk⟩ := mem_outEdges.mp he
      obtain ⟨x, hx, hc⟩ := hed e hm
      rcases b with _ | ⟨y, b⟩
      · have hn : n = w.length := hb
        have h2 := (edge_inv hct hg hd h hm)
        have := h2.2.1
        have := h2.2.2.1
        rw [hk, hn, place_nat] at *
        omega
      · have hxy : x = y := by
          rw [hab] at hx
          obtain ⟨r, c1, c2⟩ := chain_split (hab ▸ hch)
          rcases List.mem_append.mp hx with hx | hx
          · have m1 := c1.mem hx
            have : r = n := by rw [← c2.1, hb.1]
            have hkx : x.key = n := by rw [← hc.1, hk]
            rw [this, hkx] at m1
            omega
          · exact chain_key hb hx (by rw [← hc.1, hk])
        subst hxy
        rcases b with _ | ⟨z, b⟩
        · exact .cons hc .nil
        · exfalso
          obtain ⟨g, hg', -⟩ := hden z (by rw [hab]; simp)
          have hz : z.key = e.target := by rw [hc.2.1]; exact hb.2.2.1
          rw [hz, hend] at hg'
          cases hg'
    | @step n e p he hp ih =>
      intro a b hab hb
      obtain ⟨hm, hk⟩ := mem_outEdges.mp he
      obtain ⟨x, hx, hc⟩ := hed e hm
      rcases b with _ | ⟨y, b⟩
      · have hn : n = w.length := hb
        have h2 := (edge_inv hct hg hd h hm)
        have := h2.2.1
        have := h2.2.2.1
        rw [hk, hn, place_nat] at *
        omega
      · have hxy : x = y := by
          rw [hab] at hx
          obtain ⟨r, c1, c2⟩ := chain_split (hab ▸ hch)
          rcases List.mem_append.mp hx with hx | hx
          · have m1 := c1.mem hx
            have : r = n := by rw [← c2.1, hb.1]
            have hkx : x.key = n := by rw [← hc.1, hk]
            rw [this, hkx] at m1
            omega
          · exact chain_key hb hx (by rw [← hc.1, hk])
        subst hxy
        exact .cons hc (ih (a ++ [x]) b (by rw [hab]; simp) (by rw [hc.2.1]; exact hb.2.2))
  obtain ⟨ps, hps, hnd, hall⟩ := C15_listing d hok.built hac
  have hdist := (C13_distinct d hok.built).1
  have huniq : ∀ (p p' : List (Entry Syl)) (n : Int), MaxPath d n p → MaxPath d n p' → ∀ b, List.Forall₂ Carries p b →
      List.Forall₂ Carries p' b → p = p' := by
    have mem : ∀ (p : List (Entry Syl)) (n : Int), MaxPath d n p → ∀ e ∈ p, e ∈ d.mFrom := by
      intro p n hp
      induction hp with
      | last he _ => intro e h; rw [List.mem_singleton] at h; subst h; exact (mem_outEdges.mp he).1
      | step he _ ih =>
        intro e h
        rcases List.mem_cons.mp h with rfl | h
        · exact (mem_outEdges.mp he).1
        · exact ih e h
    intro p p' n hp hp' b hb hb'
    have m := mem p n hp
    have m' := mem p' n hp'
    clear hp hp'
    induction hb generalizing p' with
    | nil => cases hb'; rfl
    | @cons e x p b hc _ ih =>
      cases hb' with
      | @cons e' _ p' _ hc' hb' =>
        have : e = e' := by
          by_contra hne'
          haveI : Std.Symm fun a b : Entry Syl => ¬ (a.key = b.key ∧ a.target = b.target ∧ ceq a.val b.val = true) :=
            ⟨fun a b h ⟨h1, h2, h3⟩ => h ⟨h1.symm, h2.symm, LawfulCppEq.symm h3⟩⟩
          exact hdist.forall (m e (by simp)) (m' e' (by simp)) hne' ⟨by rw [hc.1, hc'.1], by rw [hc.2.1, hc'.2.1], LawfulCppEq.trans hc.2.2.1 (LawfulCppEq.symm hc'.2.2.1)⟩
        subst this
        rw [ih p' hb' (fun e h => m e (by simp [h])) fun e h => m' e (by simp [h])]
  -- the listing is not empty
  have hne0 : ps ≠ [] := by
    intro h0
    rw [h0] at hps
    have := (C15_empty d hac).mp hps
    obtain ⟨e, es, rfl⟩ := List.exists_cons_of_ne_nil hne
    obtain ⟨g, hg', -⟩ := hden e (by simp)
    rw [hch.1, this] at hg'
    cases hg'
  obtain ⟨p, ps, rfl⟩ := List.exists_cons_of_ne_nil hne0
  have hp := (hall p).mp (by simp)
  have hcp := hpath p 0 hp [] es0 rfl hch
  have : ps = [] := by
    rcases ps with _ | ⟨p', ps⟩
    · rfl
    · have hp' := (hall p').mp (by simp)
      have := huniq p p' 0 hp hp' es0 hcp (hpath p' 0 hp' [] es0 rfl hch)
      subst this
      simp at hnd
  subst this
  exact ⟨p, by rw [hps]; rfl, hcp⟩

theorem carries_valid {x e : Entry Syl} (h : Carries x e) (hv : ValidSyl e.val) (he : EndsAt e) : x.val = e.val := by
  obtain ⟨-, -, h3, h4⟩ := h
  have h3 := LawfulCppEq.symm h3
  have hl : e.val.isLiteral = false := by simp [Syl.isLiteral, hv.literal]
  obtain ⟨h1, h2⟩ := (Syl.eq_iff _ _).mp h3
  obtain ⟨e1, e2, e3, e4, e5⟩ := h2 hl
  have he : e.val.endPos = e.target := he
  rw [← he] at h4
  revert h1 e1 e2 e3 e4 e5 h4
  generalize x.val = a
  generalize e.val = b
  intro h1 e1 e2 e3 e4 e5 h4
  cases a; cases b
  simp only at *
  subst h1 e1 e2 e3 e4 e5 h4
  rfl

end
end Thpronun
