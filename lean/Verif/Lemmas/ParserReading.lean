import Verif.Lemmas.ParserText

/-! # Lemmas on steps and readings -/

namespace Thpronun
open Res Spec DAG

section
variable {ct : CType} {w : U16Str} {look : List Nat → Option Str} {brk : List Int}

/-- A step adds a forward chain of edges, or a period. -/
theorem step_new (hct : ct.Ok) (hg : GoodLook look) {c c' : Config} (hs : Step ct w look brk c c') :
    (∃ new, c'.edges = c.edges ++ new ∧ Chain c.pos c'.pos new) ∨
    (c'.edges = c.edges.map (stretch c.pos) ∧ c'.pos = c.pos + 1 ∧ w[c.pos]? = some ch!"." ∧
      w[c.pos - 1]? ≠ some ch!".") := by
  cases hs with
  | gap h =>
    have := h.lt
    refine .inl ⟨_, rfl, rfl, ?_, rfl⟩
    simp only [place_nat]; omega
  | dict hst hm hmk hs => exact .inl ⟨_, rfl, (dictEdges hst hm hg hmk hs).1⟩
  | abbr hst hd ha hn => exact .inl ⟨_, rfl, abbrEdges_chain hct ha hn⟩
  | syl hst hpl hc hgr he =>
    exact .inl ⟨_, rfl, sylEdges_chain (grammar_ok hct hst.lt hst.le hgr _ he).1⟩
  | dot hst hpl hc => exact .inr ⟨rfl, rfl, hc, (plain_dot hst hpl hc).2.1⟩

theorem pathEdges_zero (s : SylString) : SylString.shiftEndPos s 0 = s := by
  unfold SylString.shiftEndPos
  conv_rhs => rw [← List.map_id s]
  refine List.map_congr_left fun x _ => ?_
  have : SylString.shiftPos 0 x.endPos = x.endPos := by unfold SylString.shiftPos; split <;> omega
  rw [this]; rfl

theorem in_pathEdges {p : Int} {s : SylString} {u v : Int} {y : Syl} :
    In (pathEdges p s) u v y ↔ Edge (PronunDAG.addSylString DAG.empty p s) u v y := by
  rw [addSylString_eq, edge_addAll]
  unfold In
  constructor
  · exact .inr
  · rintro (⟨e, h, -⟩ | h)
    · cases h
    · exact h

/-- Edges of a chain give a path of the DAG. -/
theorem chain_maxPath {d : PronunDAG} {q : Int} (hends : ∀ e ∈ d.mFrom, e.val.endPos = e.target)
    (hq : d.outEdges q = []) {p : Int} {es : List (Entry Syl)} (hch : Chain p q es) (hne : es ≠ [])
    (hed : ∀ e ∈ es, Edge d e.key e.target e.val) :
    ∃ path, MaxPath d p path ∧ List.Forall₂ Carries path es := by
  induction es generalizing p with
  | nil => exact absurd rfl hne
  | cons e es ih =>
    obtain ⟨h1, -, h3⟩ := hch
    obtain ⟨x, hx, hx1, hx2⟩ := hed e (by simp)
    obtain ⟨hm, hk⟩ := mem_outEdges.mp hx
    have hc : Carries x e := ⟨hk, hx1, hx2, by rw [hends x hm, hx1]⟩
    rw [h1] at hx
    cases es with
    | nil =>
      have h3 : e.target = q := h3
      exact ⟨[x], .last hx (by rw [hx1, h3]; exact hq), .cons hc .nil⟩
    | cons e' es =>
      obtain ⟨path, hp, hf⟩ := ih h3 (by simp) (fun y hy => hed y (by simp [hy]))
      exact ⟨x :: path, .step hx (by rw [hx1]; exact hp), .cons hc hf⟩

/-! ## Words of Thai letters without dictionary -/

/-- Thai letters and signs only, at least two. -/
structure Letters (ct : CType) (w : U16Str) : Prop where
  len : 2 ≤ w.length
  tok : ∀ c ∈ w, isThaiTokenChar ct c = true ∧ c ≠ ch!"."

theorem Letters.token (h : Letters ct w) {i : Nat} (hi : i < w.length) : Token ct w i :=
  ⟨w[i], List.getElem?_eq_getElem hi, (h.tok _ (List.getElem_mem _)).1⟩

theorem Letters.nodot (h : Letters ct w) (i : Nat) : w[i]? ≠ some ch!"." :=
  fun hi => (h.tok _ (List.mem_of_getElem? hi)).2 rfl

theorem not_token_space (hct : ct.Ok) : isThaiTokenChar ct ch!" " = false := by
  have h1 : ct.isCons ch!" " = false := by
    by_contra h; have := hct.cons _ (by simpa using h); omega
  have h2 : ct.isVowel ch!" " = false := by
    by_contra h; have := hct.vowel _ (by simpa using h); omega
  have h3 : ct.isTone ch!" " = false := by
    by_contra h; have := hct.tone _ (by simpa using h); omega
  simp only [isThaiTokenChar, isWordChar, h1, h2, h3]
  decide

theorem Letters.stop (h : Letters ct w) {p t : Nat} (hst : IsStop ct w [] p t) : t = w.length := by
  rcases hst.fin with h' | ⟨h1, h2⟩
  · unfold nextBreak at h'; simp at h'; omega
  · exact absurd (h.token h1) h2

theorem Letters.isStop (h : Letters ct w) {p : Nat} (hp : p < w.length) : IsStop ct w [] p w.length :=
  ⟨hp, le_rfl, by simp [nextBreak], fun i _ hi => h.token hi, .inl (by simp [nextBreak])⟩

theorem dictAt_none {p t : Nat} : dictAt ct w (fun _ => none) p t = [] := by
  unfold dictAt prefixMatches
  simp

theorem Letters.plain (hct : ct.Ok) (h : Letters ct w) {p t : Nat} (ht : IsStop ct w [] p t) :
    Plain ct w (fun _ => none) p t := by
  refine ⟨dictAt_none, ?_⟩
  rintro ⟨e, ha⟩
  rcases ha.start with rfl | hs | hs
  · rcases ha.shape with ⟨n, -, -, -, hd⟩ | ⟨h1, h2, -⟩
    · exact h.nodot _ hd
    · have := h.stop ht; have := h.len; omega
  · have := (h.tok _ (List.mem_of_getElem? hs)).1
    rw [not_token_space hct] at this; cases this
  · exact h.nodot _ hs

/-- The steps on such a word are those of the grammar. -/
theorem Letters.step_iff (hct : ct.Ok) (h : Letters ct w) {c c' : Config} :
    Step ct w (fun _ => none) [] c c' ↔ ∃ x ems em, w[c.pos]? = some x ∧
      grammar ct w c.pos w.length c.linked x = .ok ems ∧ em ∈ ems ∧
      c' = ⟨em.pos, em.linked, c.edges ++ sylEdges c.pos em⟩ := by
  constructor
  · intro hs
    cases hs with
    | @gap p l es q hg => exact absurd (h.token (by have := hg.lt; have := hg.le; omega)) (hg.no p le_rfl hg.lt)
    | dict hst hm => rw [dictAt_none] at hm; cases hm
    | abbr hst hd ha => exact absurd ⟨_, ha⟩ (h.plain hct hst).2
    | syl hst hpl hc hg he =>
      obtain rfl := h.stop hst
      exact ⟨_, _, _, hc, hg, he, rfl⟩
    | dot hst hpl hd => exact absurd hd (h.nodot _)
  · rintro ⟨x, ems, em, hx, hg, he, rfl⟩
    have hst := h.isStop (List.getElem?_eq_some_iff.mp hx).1
    exact .syl hst (h.plain hct hst) hx hg he

end
end Thpronun
