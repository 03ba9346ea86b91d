import Verif.Lemmas.WorkUpper
import Verif.Lemmas.Rules
import Verif.Lemmas.ParserPath
import Verif.Lemmas.ParserLoop

/-! # The size of the result of the parser: helper lemmas for C75 -/

namespace Thpronun
open Res Spec

section
variable {ct : CType} {w : U16Str} {look : List Nat → Option Str} {brk : List Int}

/-- The same edge after it has taken up a period. -/
def withDot (e : Entry Syl) : Entry Syl := ⟨e.key, e.target + 1, e.val.setEndPos (e.target + 1)⟩

theorem sylEdges_length (p : Nat) (e : Emit) : (sylEdges p e).length ≤ 2 := by
  unfold sylEdges
  split <;> simp

theorem pathEdges_length (s : SylString) : ∀ p : Int, (pathEdges p s).length = s.length := by
  induction s with
  | nil => intro p; rfl
  | cons x s ih => intro p; simp [pathEdges, ih]

theorem flatMap_le {α β} {f : α → List β} {k : Nat} : ∀ {l : List α}, (∀ a ∈ l, (f a).length ≤ k) →
    (l.flatMap f).length ≤ l.length * k
  | [], _ => by simp
  | a :: l, h => by
    rw [List.flatMap_cons, List.length_append, List.length_cons, Nat.succ_mul]
    have := h a (by simp)
    have := flatMap_le (l := l) fun b hb => h b (by simp [hb])
    omega

/-- The edges of the grammar readings. -/
theorem exists_sylEdges (p t : Nat) (l : Bool) (c : Nat) : ∃ L : List (Entry Syl), L.length ≤ 70 ∧
    ∀ ems e, grammar ct w p t l c = .ok ems → e ∈ ems → ∀ x ∈ sylEdges p e, x ∈ L := by
  cases h : grammar ct w p t l c with
  | ok ems =>
    refine ⟨ems.flatMap (sylEdges p), ?_, ?_⟩
    · have h1 := (few_grammar (ct := ct) (w := w) p t l c).le ems h
      have h2 := flatMap_le (l := ems) fun e _ => sylEdges_length p e
      omega
    · rintro _ e ⟨⟩ he x hx
      exact List.mem_flatMap.mpr ⟨e, he, hx⟩
  | throw e => exact ⟨[], by simp, fun _ _ h => by cases h⟩
  | ub => exact ⟨[], by simp, fun _ _ h => by cases h⟩
  | diverge => exact ⟨[], by simp, fun _ _ h => by cases h⟩

/-- The edges of the dictionary words at a position. -/
theorem exists_dictEdges {B : Nat} (p t : Nat)
    (hB : ∀ v data strs, look v = some data → SylString.makeSylStrings data = .ok strs → (strs.map List.length).sum ≤ B) :
    ∃ L : List (Entry Syl), L.length ≤ w.length * B ∧ ∀ q data strs str, (q, data) ∈ dictAt ct w look p t →
      SylString.makeSylStrings data = .ok strs → str ∈ strs → ∀ x ∈ pathEdges p (SylString.shiftEndPos str p), x ∈ L := by
  refine ⟨(dictAt ct w look p t).flatMap fun m => match SylString.makeSylStrings m.2 with
    | .ok strs => strs.flatMap fun str => pathEdges p (SylString.shiftEndPos str p)
    | _ => [], ?_, ?_⟩
  · refine (flatMap_le (k := B) fun m hm => ?_).trans (Nat.mul_le_mul_right _ ?_)
    · cases h : SylString.makeSylStrings m.2 with
      | ok strs =>
        unfold dictAt prefixMatches at hm
        rw [List.mem_filter, List.mem_filterMap] at hm
        obtain ⟨⟨n, -, hn⟩, -⟩ := hm
        rw [Option.map_eq_some_iff] at hn
        obtain ⟨data, h1, rfl⟩ := hn
        refine le_trans (le_of_eq ?_) (hB _ _ _ h1 h)
        rw [List.length_flatMap]
        congr 2
        funext str
        rw [pathEdges_length]
        simp [SylString.shiftEndPos]
      | throw e => simp
      | ub => simp
      | diverge => simp
    · unfold dictAt prefixMatches
      refine (List.length_filter_le _ _).trans ((List.length_filterMap_le _ _).trans ?_)
      simp
  · intro q data strs str hm hs hstr x hx
    refine List.mem_flatMap.mpr ⟨(q, data), hm, ?_⟩
    simp only [hs]
    exact List.mem_flatMap.mpr ⟨str, hstr, hx⟩

/-- The edges that a step from a given position can add. -/
theorem exists_new (hct : ct.Ok) {B : Nat}
    (hB : ∀ v data strs, look v = some data → SylString.makeSylStrings data = .ok strs → (strs.map List.length).sum ≤ B)
    (p : Nat) : ∃ L : List (Entry Syl), L.length ≤ 145 + w.length * B ∧
      ∀ l es c', Step ct w look brk ⟨p, l, es⟩ c' →
        (∃ new, c'.edges = es ++ new ∧ ∀ x ∈ new, x ∈ L) ∨
        (c'.edges = es.map (stretch p) ∧ c'.pos = p + 1 ∧ w[p]? = some ch!"." ∧ 0 < p ∧ w[p - 1]? ≠ some ch!".") := by
  classical
  by_cases hg : ∃ q, IsGap ct w p q
  · obtain ⟨q, hq⟩ := hg
    refine ⟨[⟨p, q, Syl.lit q (piece w p q)⟩], by simp; omega, ?_⟩
    intro l es c' hc
    have hno {t} (ht : IsStop ct w brk p t) : False := hq.no p le_rfl hq.lt ht.token
    cases hc with
    | gap h => rw [h.unique hq]; exact .inl ⟨_, rfl, fun x hx => hx⟩
    | dict h => exact (hno h).elim
    | abbr h => exact (hno h).elim
    | syl h => exact (hno h).elim
    | dot h => exact (hno h).elim
  by_cases hs : ∃ t, IsStop ct w brk p t
  · obtain ⟨t, ht⟩ := hs
    obtain ⟨L1, hl1, h1⟩ := exists_dictEdges (ct := ct) (w := w) p t hB
    obtain ⟨L2, hl2, h2⟩ : ∃ L : List (Entry Syl), L.length ≤ 5 ∧ ∀ q new, IsAbbr ct w p t q → abbrEdges w p q = .ok new →
        ∀ x ∈ new, x ∈ L := by
      by_cases ha : ∃ q new, IsAbbr ct w p t q ∧ abbrEdges w p q = .ok new
      · obtain ⟨q, new, ha, hn⟩ := ha
        refine ⟨new, ?_, ?_⟩
        · unfold abbrEdges at hn
          split at hn
          · cases hn; simp
          · have h3 := (mapRes_ok.mp hn).length_eq
            rw [List.length_range] at h3
            rw [← h3]
            rcases ha.shape with ⟨n, h4, h5, -⟩ | ⟨h5, -⟩ <;> split <;> omega
        · intro q' new' ha' hn'
          rw [ha'.unique hct ha, hn] at hn'
          cases hn'
          exact fun x hx => hx
      · exact ⟨[], by simp, fun q new h h' => absurd ⟨q, new, h, h'⟩ ha⟩
    obtain ⟨c, hc⟩ : ∃ c, w[p]? = some c := ⟨_, List.getElem?_eq_getElem (ht.lt.trans_le ht.le)⟩
    obtain ⟨L3, hl3, h3⟩ := exists_sylEdges (ct := ct) (w := w) p t false c
    obtain ⟨L4, hl4, h4⟩ := exists_sylEdges (ct := ct) (w := w) p t true c
    refine ⟨L1 ++ (L2 ++ (L3 ++ L4)), by simp only [List.length_append]; omega, ?_⟩
    intro l es c' hst
    cases hst with
    | gap h => exact absurd ⟨_, h⟩ hg
    | dict h hm hs hstr =>
      cases h.unique ht
      exact .inl ⟨_, rfl, fun x hx => by simp [h1 _ _ _ _ hm hs hstr x hx]⟩
    | abbr h _ ha hn =>
      cases h.unique ht
      exact .inl ⟨_, rfl, fun x hx => by simp [h2 _ _ ha hn x hx]⟩
    | syl h _ hc' hgr he =>
      cases h.unique ht
      rw [hc] at hc'
      cases hc'
      refine .inl ⟨_, rfl, fun x hx => ?_⟩
      cases l with
      | false => simp [h3 _ _ hgr he x hx]
      | true => simp [h4 _ _ hgr he x hx]
    | dot h hpl hd =>
      obtain ⟨h5, h6, -⟩ := plain_dot h hpl hd
      exact .inr ⟨rfl, rfl, hd, h5, h6⟩
  · refine ⟨[], by simp, ?_⟩
    intro l es c' hc
    cases hc with
    | gap h => exact absurd ⟨_, h⟩ hg
    | dict h => exact absurd ⟨_, h⟩ hs
    | abbr h => exact absurd ⟨_, h⟩ hs
    | syl h => exact absurd ⟨_, h⟩ hs
    | dot h => exact absurd ⟨_, h⟩ hs

theorem step_lt {c c' : Config} (h : Step ct w look brk c c') : c.pos < w.length := by
  cases h with
  | gap h => exact h.lt.trans_le h.le
  | dict h => exact h.lt.trans_le h.le
  | abbr h => exact h.lt.trans_le h.le
  | syl h => exact h.lt.trans_le h.le
  | dot h => exact h.lt.trans_le h.le

/-- All edges of all partial readings. -/
theorem exists_edges (hct : ct.Ok) {B : Nat}
    (hB : ∀ v data strs, look v = some data → SylString.makeSylStrings data = .ok strs → (strs.map List.length).sum ≤ B) :
    ∃ L : List (Entry Syl), L.length ≤ 2 * (w.length * (145 + w.length * B)) ∧
      ∀ c, Deriv ct w look brk c → ∀ e ∈ c.edges, e ∈ L := by
  choose f hf hst using exists_new (w := w) (brk := brk) hct hB
  obtain ⟨M, hM⟩ : ∃ M, M = (List.range w.length).flatMap f := ⟨_, rfl⟩
  have hl : M.length ≤ w.length * (145 + w.length * B) := by
    rw [hM]
    refine (flatMap_le fun p _ => hf p).trans ?_
    rw [List.length_range]
  refine ⟨M ++ M.map withDot, by simp only [List.length_append, List.length_map]; omega, ?_⟩
  have key : ∀ c, Deriv ct w look brk c → ∀ e ∈ c.edges, e ∈ M ∨ ∃ p : Nat, w[p]? = some ch!"." ∧ ∃ e0 ∈ M, e0.target = p ∧
      e = withDot e0 := by
    intro c hc
    induction hc with
    | refl => simp
    | @tail c c' _ hs ih =>
      obtain ⟨p, l, es⟩ := c
      have hp : p < w.length := step_lt hs
      rcases hst p l es c' hs with ⟨new, he, hn⟩ | ⟨he, -, hd, hp0, hp1⟩
      · intro e hm
        rw [he, List.mem_append] at hm
        rcases hm with hm | hm
        · exact ih e hm
        · left
          rw [hM]
          exact List.mem_flatMap.mpr ⟨p, List.mem_range.mpr hp, hn e hm⟩
      · intro e hm
        rw [he, List.mem_map] at hm
        obtain ⟨e0, hm, rfl⟩ := hm
        unfold stretch
        split
        · rename_i ht
          right
          rcases ih e0 hm with h1 | ⟨q, h1, e1, h2, h3, rfl⟩
          · refine ⟨p, hd, e0, h1, ht, ?_⟩
            simp [withDot, ht]
          · exfalso
            simp only [withDot, h3] at ht
            apply hp1
            have : p - 1 = q := by omega
            rw [this, h1]
        · exact ih e0 hm
  intro c hc e he
  rw [List.mem_append, List.mem_map]
  rcases key c hc e he with h | ⟨p, -, e0, h, -, rfl⟩
  · exact .inl h
  · exact .inr ⟨e0, h, rfl⟩

/-- Different edges of a result are at most as many as the edges of all readings. -/
theorem count_le {L l : List (Entry Syl)} (hl : l.Pairwise fun a b => ¬ DAG.Same a b)
    (h : ∀ e ∈ l, ∃ e' ∈ L, DAG.Same e' e) : l.length ≤ L.length := by
  choose! f hf hs using h
  have hsymm : ∀ {a b : Entry Syl}, DAG.Same a b → DAG.Same b a := fun h => ⟨h.1.symm, h.2.1.symm, LawfulCppEq.symm h.2.2⟩
  have htr : ∀ {a b c : Entry Syl}, DAG.Same a b → DAG.Same b c → DAG.Same a c :=
    fun h h' => ⟨h.1.trans h'.1, h.2.1.trans h'.2.1, LawfulCppEq.trans h.2.2 h'.2.2⟩
  have hn : (l.map f).Nodup := by
    unfold List.Nodup
    rw [List.pairwise_map]
    refine hl.imp_of_mem ?_
    intro a b ha hb hab he
    apply hab
    exact htr (hsymm (hs a ha)) (he ▸ hs b hb)
  have hsub : l.map f ⊆ L := by
    intro x hx
    obtain ⟨e, he, rfl⟩ := List.mem_map.mp hx
    exact hf e he
  have := (hn.subperm hsub).length_le
  rwa [List.length_map] at this

theorem parse_size (hct : ct.Ok) {dict : Option Dict} (hd : Holds dict look) {d : PronunDAG} {B : Nat}
    (hB : ∀ v data strs, look v = some data → SylString.makeSylStrings data = .ok strs → (strs.map List.length).sum ≤ B)
    (h : parseU16 ct w dict brk = .ok d) {l : List (Entry Syl)} (hl : l.Pairwise fun a b => ¬ DAG.Same a b)
    (he : ∀ e ∈ l, Edge d e.key e.target e.val) : l.length ≤ 2 * w.length * (145 + w.length * B) := by
  obtain ⟨L, h1, h2⟩ := exists_edges (w := w) (brk := brk) hct hB
  refine (count_le (L := L) hl fun e hm => ?_).trans (h1.trans (le_of_eq (by rw [Nat.mul_assoc])))
  obtain ⟨es, ⟨c, hc, -, rfl⟩, x, hx, h3, h4, h5⟩ := ((parseU16_correct hct hd h).2 _ _ _).mp (he e hm)
  exact ⟨x, h2 c hc x hx, h3, h4, h5⟩

end

end Thpronun
