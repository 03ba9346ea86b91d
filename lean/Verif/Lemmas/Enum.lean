import Verif.Lemmas.Listed
import Verif.Lemmas.Used

/-! # The readings of a short text by evaluation

For texts of Thai letters, signs and periods without word breaks. -/

namespace Thpronun.Enum
open Res Spec

variable {ct : CType} {w : U16Str} {look : List Nat → Option Str}

def has (w : U16Str) (i : Nat) (P : Nat → Bool) : Bool := match w[i]? with | some c => P c | none => false

theorem has_of {i c : Nat} {P : Nat → Bool} (h : w[i]? = some c) : has w i P = P c := by
  unfold has; rw [h]

theorem has_iff {i : Nat} {P : Nat → Bool} : has w i P = true ↔ ∃ c, w[i]? = some c ∧ P c = true := by
  unfold has
  cases w[i]? <;> simp

/-- The ends of abbreviations at `p`. -/
def abbrsAt (ct : CType) (w : U16Str) (p : Nat) : List Nat :=
  if p = 0 ∨ w[p - 1]? = some ch!" " ∨ w[p - 1]? = some ch!"." then
    ((List.range 5).filter fun n => decide (w[p + n]? = some ch!".") && (List.range n).all fun i => has w (p + i) ct.isCons).map
      (fun n => p + n + 1) ++ if p + 1 = w.length ∧ has w p ct.isCons then [p + 1] else []
  else []

theorem mem_abbrsAt {p q : Nat} : q ∈ abbrsAt ct w p ↔ IsAbbr ct w p w.length q := by
  unfold abbrsAt
  constructor
  · intro h
    split at h
    · rename_i hs
      rcases List.mem_append.mp h with h | h
      · obtain ⟨n, hn, rfl⟩ := List.mem_map.mp h
        obtain ⟨h1, h2⟩ := List.mem_filter.mp hn
        simp only [Bool.and_eq_true, decide_eq_true_eq, List.all_eq_true, List.mem_range] at h1 h2
        have hl := (List.getElem?_eq_some_iff.mp h2.1).1
        refine ⟨hs, by omega, .inl ⟨n, by omega, rfl, fun i hi hi' => ?_, h2.1⟩⟩
        have := has_iff.mp (h2.2 (i - p) (by omega))
        rwa [show p + (i - p) = i by omega] at this
      · split at h
        · rename_i hc
          obtain rfl := List.mem_singleton.mp h
          exact ⟨hs, by omega, .inr ⟨rfl, hc.1, has_iff.mp hc.2⟩⟩
        · cases h
    · cases h
  · rintro ⟨h1, h2, h3⟩
    rw [if_pos h1, List.mem_append]
    rcases h3 with ⟨n, hn, rfl, h4, h5⟩ | ⟨rfl, h4, h5⟩
    · refine .inl (List.mem_map.mpr ⟨n, List.mem_filter.mpr ⟨List.mem_range.mpr (by omega), ?_⟩, rfl⟩)
      simp only [Bool.and_eq_true, decide_eq_true_eq, List.all_eq_true, List.mem_range]
      exact ⟨h5, fun i hi => has_iff.mpr (h4 _ (by omega) (by omega))⟩
    · exact .inr (by rw [if_pos ⟨h4, has_iff.mpr h5⟩]; exact List.mem_singleton_self _)

/-- The next partial readings. -/
def succs (ct : CType) (w : U16Str) (look : List Nat → Option Str) (c : Config) : List Config :=
  if dictAt ct w look c.pos w.length ≠ [] then
    (dictAt ct w look c.pos w.length).flatMap fun m => match SylString.makeSylStrings m.2 with
      | .ok strs => strs.map fun str => ⟨m.1, false, c.edges ++ pathEdges c.pos (SylString.shiftEndPos str c.pos)⟩
      | _ => []
  else if abbrsAt ct w c.pos ≠ [] then
    (abbrsAt ct w c.pos).flatMap fun q => match abbrEdges w c.pos q with
      | .ok new => [⟨q, false, c.edges ++ new⟩]
      | _ => []
  else match w[c.pos]? with
    | some x => (match grammar ct w c.pos w.length c.linked x with
        | .ok ems => ems.map fun e => ⟨e.pos, e.linked, c.edges ++ sylEdges c.pos e⟩
        | _ => []) ++ if x = ch!"." then [⟨c.pos + 1, c.linked, c.edges.map (stretch c.pos)⟩] else []
    | none => []

theorem stop_eq (hw : ∀ i < w.length, Token ct w i) {p t : Nat} (h : IsStop ct w [] p t) : t = w.length := by
  rcases h.fin with h1 | ⟨h1, h2⟩
  · simp only [nextBreak, List.find?_nil, Option.getD_none] at h1
    omega
  · exact absurd (hw t h1) h2

theorem mem_succs (hw : ∀ i < w.length, Token ct w i) {c c' : Config} (h : Step ct w look [] c c') : c' ∈ succs ct w look c := by
  unfold succs
  cases h with
  | gap h => exact absurd (hw _ (by have := h.lt; have := h.le; omega)) (h.no _ (Nat.le_refl _) h.lt)
  | dict h1 h2 h3 h4 =>
    obtain rfl := stop_eq hw h1
    rw [if_pos (List.ne_nil_of_mem h2), List.mem_flatMap]
    refine ⟨_, h2, ?_⟩
    simp only [h3]
    exact List.mem_map.mpr ⟨_, h4, rfl⟩
  | abbr h1 h2 h3 h4 =>
    obtain rfl := stop_eq hw h1
    have hm := mem_abbrsAt.mpr h3
    rw [if_neg (by simp [h2]), if_pos (List.ne_nil_of_mem hm), List.mem_flatMap]
    refine ⟨_, hm, ?_⟩
    simp only [h4, List.mem_singleton]
  | syl h1 h2 h3 h4 h5 =>
    obtain rfl := stop_eq hw h1
    rw [if_neg (by simp [h2.1]), if_neg (fun hn => h2.2 (by
      obtain ⟨q, hq⟩ := List.exists_mem_of_ne_nil _ hn
      exact ⟨q, mem_abbrsAt.mp hq⟩))]
    simp only [h3, h4, List.mem_append]
    exact .inl (List.mem_map.mpr ⟨_, h5, rfl⟩)
  | dot h1 h2 h3 =>
    obtain rfl := stop_eq hw h1
    rw [if_neg (by simp [h2.1]), if_neg (fun hn => h2.2 (by
      obtain ⟨q, hq⟩ := List.exists_mem_of_ne_nil _ hn
      exact ⟨q, mem_abbrsAt.mp hq⟩))]
    simp only [h3, List.mem_append, if_pos, List.mem_singleton, or_true]

/-- The readings from `c` on. -/
def ends (ct : CType) (w : U16Str) (look : List Nat → Option Str) : Nat → Config → List Config
  | 0, c => [c]
  | k + 1, c => if w.length ≤ c.pos then [c] else (succs ct w look c).flatMap (ends ct w look k)

theorem mem_ends (hct : ct.Ok) (hw : ∀ i < w.length, Token ct w i) {c c' : Config}
    (h : Relation.ReflTransGen (Step ct w look []) c c') (hc : w.length ≤ c'.pos) :
    ∀ k, w.length - c.pos ≤ k → c' ∈ ends ct w look k c := by
  induction h using Relation.ReflTransGen.head_induction_on with
  | refl =>
    intro k _
    cases k with
    | zero => exact List.mem_singleton_self _
    | succ k => rw [ends, if_pos hc]; exact List.mem_singleton_self _
  | head hs _ ih =>
    intro k hk
    have := hs.lt hct
    cases k with
    | zero => omega
    | succ k =>
      rw [ends, if_neg (by omega)]
      exact List.mem_flatMap.mpr ⟨_, mem_succs hw hs, ih k (by omega)⟩

/-- A pronunciation is one of a reading, by evaluation. -/
def isPron : List Syl → List (Entry Syl) → Bool
  | [], [] => true
  | x :: s, e :: es => ceq x e.val && decide (x.endPos = e.target) && isPron s es
  | _, _ => false

theorem isPron_of {s : List Syl} {es : List (Entry Syl)} (h : IsPron s es) : isPron s es = true := by
  induction h with
  | nil => rfl
  | cons h _ ih => simp [isPron, h.1, h.2, ih]

/-- No reading has the pronunciation. -/
theorem not_reading (hct : ct.Ok) (hw : ∀ i < w.length, Token ct w i) {s : List Syl}
    (h : (ends ct w look w.length ⟨0, false, []⟩).all (fun c => !isPron s c.edges) = true) :
    ¬ ∃ es, RuleReading ct w look [] es ∧ IsPron s es := by
  rintro ⟨es, hr, hp⟩
  obtain ⟨c, hc, hl, rfl⟩ := (ruleReading_iff hct).mp hr
  have := List.all_eq_true.mp h c (mem_ends hct hw hc hl _ (by simp))
  rw [isPron_of hp] at this
  cases this

end Thpronun.Enum
