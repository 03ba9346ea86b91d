import Verif.Lemmas.ParserStep

/-! # Soundness and completeness of the parser loop: helper lemmas -/

namespace Thpronun
open Res Spec DAG

section
variable {ct : CType} {w : U16Str} {brk : List Int} {look : List Nat → Option Str}

/-- The farthest end of a syllable at `p`: the end of the token, or one consonant more for a leading vowel at
its end. -/
def reach (ct : CType) (p t c : Nat) : Nat :=
  if ct.isLdVowel c = true ∧ c ≠ UTH.SARA_E ∧ t = p + 1 then p + 2 else t

theorem grammar_ok (hct : ct.Ok) {p t c : Nat} {l : Bool} {ems} (hp : p < t) (ht : t ≤ w.length)
    (h : grammar ct w p t l c = .ok ems) :
    ∀ e ∈ ems, EOK ct w p t (reach ct p t c) e ∧ e.pos ≤ w.length := by
  have fin : ∀ {r : Res (List Emit)} {S : Nat}, r.Sat (AllE ct w p t S) → r = .ok ems → S ≤ w.length →
      S ≤ reach ct p t c → ∀ e ∈ ems, EOK ct w p t (reach ct p t c) e ∧ e.pos ≤ w.length := by
    intro r S hr he hS hS' e hem
    rw [he] at hr
    have h := hr e hem
    exact ⟨⟨h.lo, by have := h.hi; omega, h.span, h.init, h.vowel, h.tone, h.link⟩, by have := h.hi; omega⟩
  have ht' : t ≤ reach ct p t c := by
    unfold reach; split
    · omega
    · exact le_rfl
  unfold grammar at h
  by_cases h1 : ct.isCons c = true
  · rw [if_pos h1] at h
    exact fin (parseThCons_sat hct ht p l hp) h ht ht'
  · rw [if_neg h1] at h
    by_cases h2 : c = UTH.SARA_E
    · rw [if_pos h2] at h
      exact fin (parseSaraE_sat hct ht p l) h ht ht'
    · rw [if_neg h2] at h
      by_cases h3 : ct.isLdVowel c = true
      · rw [if_pos h3] at h
        by_cases h4 : p + 1 < w.length
        · refine fin (parseOtherLV_sat hct ht p l h4) h (by omega) ?_
          unfold reach
          by_cases h5 : t = p + 1
          · rw [if_pos ⟨h3, h2, h5⟩]; omega
          · rw [if_neg (fun h => h5 h.2.2)]; omega
        · rw [parseOtherLV_throw p l (by omega)] at h
          cases h
      · rw [if_neg h3] at h
        by_cases h4 : c = UTH.RU ∨ c = UTH.LU
        · rw [if_pos h4] at h
          exact fin (parseRuLu_sat hct ht p hp le_rfl rfl) h ht ht'
        · rw [if_neg h4] at h
          cases h
          intro e he; cases he

theorem Spec.IsAbbr.lt {p t e : Nat} (h : IsAbbr ct w p t e) : p < e := by
  rcases h.shape with ⟨n, -, rfl, -⟩ | ⟨rfl, -⟩ <;> omega

theorem Spec.IsAbbr.unique (hct : ct.Ok) {p t e e' : Nat} (h : IsAbbr ct w p t e) (h' : IsAbbr ct w p t e') :
    e = e' := by
  have dotc : ∀ i : Nat, w[i]? = some ch!"." → ¬ ∃ c, w[i]? = some c ∧ ct.isCons c = true := by
    rintro i hi ⟨c, hc, hcc⟩
    rw [hi] at hc; cases hc
    rw [not_cons_dot hct] at hcc; cases hcc
  have h1 := h.le
  have h2 := h'.le
  rcases h.shape with ⟨n, hn, rfl, hc, hd⟩ | ⟨rfl, ht, hc⟩ <;>
    rcases h'.shape with ⟨m, hm, rfl, hc', hd'⟩ | ⟨rfl, ht', hc'⟩
  · rcases Nat.lt_trichotomy n m with h | rfl | h
    · exact absurd (hc' (p + n) (by omega) (by omega)) (dotc _ hd)
    · rfl
    · exact absurd (hc (p + m) (by omega) (by omega)) (dotc _ hd')
  · have : n = 0 := by omega
    subst this
    exact absurd hc' (dotc _ hd)
  · have : m = 0 := by omega
    subst this
    exact absurd hc (dotc _ hd')
  · rfl

theorem makeSylStrings_ne {data : Str} {strs} (h : SylString.makeSylStrings data = .ok strs) : strs ≠ [] := by
  have := (mapRes_ok.mp h).length_eq
  rintro rfl
  rw [List.length_nil, List.length_eq_zero_iff] at this
  revert this
  cases data with
  | nil => simp [SylString.splitOn]
  | cons c cs =>
    rw [SylString.splitOn]
    split
    · simp
    · split <;> simp

theorem expands_sok (hct : ct.Ok) {s : PState} (hs : SOK ct w brk s) {ss} (h : Expands ct w brk look s ss) :
    ∀ s' ∈ ss, SOK ct w brk s' := by
  cases h with
  | gap hq ht ht' =>
    intro s' h
    rw [List.mem_singleton] at h
    subst h
    exact ⟨hs.dag.addEdges (fun e he => by rw [List.mem_singleton] at he; subst he; rfl), hq.le, ht⟩
  | stop h1 ht =>
    intro s' h
    rw [List.mem_singleton] at h
    subst h
    exact ⟨hs.dag, hs.pos, fun _ => ht⟩
  | dict hst hne hF =>
    intro s' h
    obtain ⟨m, hm, strs, h1, rfl⟩ := forall₂_mem_right hF h
    obtain ⟨m1, m2, m3, -⟩ := mem_dictAt hm
    refine ⟨?_, m3, fun h => hst.mid m1.le h⟩
    simp only
    rw [exceptDag_eq]
    refine hs.dag.addEdges fun e he => ?_
    obtain ⟨x, -, hx⟩ := List.mem_flatMap.mp he
    exact pathEdges_ends _ _ e hx
  | abbr hst hd ha hn hs' =>
    intro s' h
    rw [List.mem_singleton] at h
    subst h
    rw [hs']
    exact ⟨hs.dag.addEdges (abbrEdges_ends hn), ha.le.trans hst.le, fun h => hst.mid ha.lt.le h⟩
  | dot hst hpl hc hd he =>
    intro s' h
    rw [List.mem_singleton] at h
    subst h
    exact ⟨hd, by have := hst.lt; have := hst.le; simp only; omega, fun h => hst.mid (by simp) h⟩
  | syl hst hpl hc hnd hg =>
    intro s' h
    obtain ⟨e, he, rfl⟩ := List.mem_map.mp h
    obtain ⟨h1, h2⟩ := grammar_ok hct hst.lt hst.le hg e he
    exact ⟨hs.dag.addEdges (sylEdges_ends _ _), h2, fun h => hst.mid h1.lo.le h⟩

/-! ## Soundness -/

variable (ct w brk look) in
/-- The state stands for a non-empty set of derivations that together have all its edges. -/
structure Snd (s : PState) : Prop where
  some : ∃ es, Deriv ct w look brk ⟨s.pos, s.linked, es⟩
  edges : ∀ u v y, Edge s.dag u v y → ∃ es, Deriv ct w look brk ⟨s.pos, s.linked, es⟩ ∧ In es u v y

theorem in_append {a b : List (Entry Syl)} {u v y} : In (a ++ b) u v y ↔ In a u v y ∨ In b u v y := by
  simp only [In, List.mem_append, or_and_right, exists_or]

theorem snd_append {s s' : PState} (h : Snd ct w brk look s) {new : List (Entry Syl)}
    (hstep : ∀ es, Step ct w look brk ⟨s.pos, s.linked, es⟩ ⟨s'.pos, s'.linked, es ++ new⟩)
    (hd : s'.dag = addEdges s.dag new) : Snd ct w brk look s' := by
  obtain ⟨es, hes⟩ := h.some
  refine ⟨⟨_, hes.tail (hstep es)⟩, fun u v y hy => ?_⟩
  rw [hd, edge_addAll] at hy
  rcases hy with hy | hy
  · obtain ⟨es, hes, hin⟩ := h.edges u v y hy
    exact ⟨_, hes.tail (hstep es), in_append.mpr (.inl hin)⟩
  · exact ⟨_, hes.tail (hstep es), in_append.mpr (.inr hy)⟩

theorem ceq_setEndPos_iff (x y : Syl) (p : Int) : ceq (x.setEndPos p) y = true ↔ ceq x y = true :=
  ⟨fun h => LawfulCppEq.trans (ceq_setEndPos _ _) h,
   fun h => LawfulCppEq.trans (LawfulCppEq.symm (ceq_setEndPos _ _)) h⟩

theorem in_stretch {es : List (Entry Syl)} {p : Nat} {u v y} :
    In (es.map (stretch p)) u v y ↔ (v ≠ p ∧ In es u v y) ∨ (v = (p : Int) + 1 ∧ In es u p y) := by
  simp only [In, List.mem_map]
  constructor
  · rintro ⟨_, ⟨e, he, rfl⟩, h1, h2, h3⟩
    unfold stretch at h1 h2 h3
    by_cases ht : e.target = p
    · rw [if_pos ht] at h1 h2 h3
      exact .inr ⟨h2.symm, e, he, h1, ht, (ceq_setEndPos_iff _ _ _).mp h3⟩
    · rw [if_neg ht] at h1 h2 h3
      exact .inl ⟨h2 ▸ ht, e, he, h1, h2, h3⟩
  · rintro (⟨h0, e, he, h1, h2, h3⟩ | ⟨h0, e, he, h1, h2, h3⟩)
    · refine ⟨_, ⟨e, he, rfl⟩, ?_⟩
      rw [stretch, if_neg (by rw [h2]; exact h0)]
      exact ⟨h1, h2, h3⟩
    · refine ⟨_, ⟨e, he, rfl⟩, ?_⟩
      rw [stretch, if_pos h2]
      exact ⟨h1, h0.symm, (ceq_setEndPos_iff _ _ _).mpr h3⟩

theorem expands_snd {s : PState} (h : Snd ct w brk look s) {ss} (hx : Expands ct w brk look s ss) :
    ∀ s' ∈ ss, Snd ct w brk look s' := by
  cases hx with
  | gap hq ht ht' =>
    intro s' h'
    rw [List.mem_singleton] at h'
    subst h'
    exact snd_append h (fun es => .gap hq) rfl
  | stop h1 ht =>
    intro s' h'
    rw [List.mem_singleton] at h'
    subst h'
    exact ⟨h.some, h.edges⟩
  | dict hst hne hF =>
    intro s' h'
    obtain ⟨m, hm, strs, h1, rfl⟩ := forall₂_mem_right hF h'
    obtain ⟨str, hstr⟩ := List.exists_mem_of_ne_nil _ (makeSylStrings_ne h1)
    have hstep : ∀ es, ∀ str ∈ strs, Step ct w look brk ⟨s.pos, s.linked, es⟩
        ⟨m.1, false, es ++ pathEdges s.pos (SylString.shiftEndPos str s.pos)⟩ :=
      fun es str hstr => .dict hst (data := m.2) hm h1 hstr
    obtain ⟨es, hes⟩ := h.some
    refine ⟨⟨_, hes.tail (hstep es str hstr)⟩, fun u v y hy => ?_⟩
    simp only at hy
    rw [exceptDag_eq, edge_addAll] at hy
    rcases hy with hy | ⟨e, he, hy⟩
    · obtain ⟨es, hes, hin⟩ := h.edges u v y hy
      exact ⟨_, hes.tail (hstep es str hstr), in_append.mpr (.inl hin)⟩
    · obtain ⟨x, hx, hxe⟩ := List.mem_flatMap.mp he
      exact ⟨_, hes.tail (hstep es x hx), in_append.mpr (.inr ⟨e, hxe, hy⟩)⟩
  | abbr hst hd ha hn hs' =>
    intro s' h'
    rw [List.mem_singleton] at h'
    subst h'
    refine snd_append h (new := _) (fun es => ?_) (congrArg PState.dag hs')
    rw [show s'.linked = false by rw [hs']]
    exact .abbr hst hd ha hn
  | dot hst hpl hc hd he =>
    intro s' h'
    rw [List.mem_singleton] at h'
    subst h'
    obtain ⟨es, hes⟩ := h.some
    refine ⟨⟨_, hes.tail (.dot hst hpl hc)⟩, fun u v y hy => ?_⟩
    rcases (he u v y).mp hy with ⟨h1, h2⟩ | ⟨h1, h2⟩
    · obtain ⟨es, hes, hin⟩ := h.edges u v y h2
      exact ⟨_, hes.tail (.dot hst hpl hc), in_stretch.mpr (.inl ⟨h1, hin⟩)⟩
    · obtain ⟨es, hes, hin⟩ := h.edges u _ y h2
      exact ⟨_, hes.tail (.dot hst hpl hc), in_stretch.mpr (.inr ⟨h1, hin⟩)⟩
  | syl hst hpl hc hnd hg =>
    intro s' h'
    obtain ⟨e, he, rfl⟩ := List.mem_map.mp h'
    exact snd_append h (fun es => .syl hst hpl hc hg he) rfl

/-! ## Completeness -/

/-- A partial reading that the state stands for. -/
structure Matches (s : PState) (c : Config) : Prop where
  pos : c.pos = s.pos
  linked : c.linked = s.linked
  edges : ∀ u v y, In c.edges u v y → Edge s.dag u v y

theorem Matches.covers {s x : PState} {c : Config} (h : Matches s c) (hx : Covers x s) : Matches x c :=
  ⟨h.pos.trans hx.1.symm, h.linked.trans hx.2.1.symm, fun u v y hy => hx.2.2 u v y (h.edges u v y hy)⟩

theorem Matches.append {s s' : PState} {p l es q l'} (h : Matches s ⟨p, l, es⟩) {new : List (Entry Syl)}
    (hp : s'.pos = q) (hl : s'.linked = l') (hd : ∀ u v y, Edge (addEdges s.dag new) u v y → Edge s'.dag u v y) :
    Matches s' ⟨q, l', es ++ new⟩ :=
  ⟨hp.symm, hl.symm, fun u v y hy => hd u v y (by
    rw [edge_addAll]
    exact (in_append.mp hy).imp_left (h.edges u v y))⟩

theorem expands_complete (hct : ct.Ok) {s : PState} {ss} (hx : Expands ct w brk look s ss)
    {c c' : Config} (hm : Matches s c) (hstep : Step ct w look brk c c') :
    ∃ s' ∈ ss, Matches s' c' ∨ Matches s' c := by
  have dotNo : ∀ {c : Nat} {l : Bool} {t : Nat} {ems : List Emit}, c = ch!"." →
      grammar ct w s.pos t l c = .ok ems → ems = [] := by
    rintro c l t ems rfl hg
    have h1 : ct.isCons ch!"." = false := not_cons_dot hct
    have h2 : ct.isLdVowel ch!"." = false := by
      rw [← Bool.not_eq_true]; intro h; have := hct.ld _ h; omega
    rw [grammar, if_neg (by simp [h1]), if_neg (by decide), if_neg (by simp [h2]), if_neg (by decide)] at hg
    cases hg; rfl
  cases hx with
  | gap hq ht ht' =>
    refine ⟨_, List.mem_singleton_self _, .inl ?_⟩
    cases hstep with
    | gap hg =>
      obtain rfl := hm.pos
      obtain rfl := hq.unique hg
      exact hm.append rfl hm.linked.symm (fun _ _ _ h => h)
    | dict hst => obtain rfl := hm.pos; exact absurd hst.token (hq.no _ le_rfl hq.lt)
    | abbr hst => obtain rfl := hm.pos; exact absurd hst.token (hq.no _ le_rfl hq.lt)
    | syl hst => obtain rfl := hm.pos; exact absurd hst.token (hq.no _ le_rfl hq.lt)
    | dot hst => obtain rfl := hm.pos; exact absurd hst.token (hq.no _ le_rfl hq.lt)
  | stop h1 ht => exact ⟨_, List.mem_singleton_self _, .inr ⟨hm.pos, hm.linked, hm.edges⟩⟩
  | dict hst hne hF =>
    cases hstep with
    | gap hg => obtain rfl := hm.pos; exact absurd hst.token (hg.no _ le_rfl hg.lt)
    | dict hst' hmem hmk hstr =>
      obtain rfl := hm.pos
      obtain rfl := hst.unique hst'
      obtain ⟨s', hs', strs, hmk', rfl⟩ := forall₂_mem_left hF hmem
      simp only at hmk'
      rw [hmk] at hmk'; cases hmk'
      refine ⟨_, hs', .inl (hm.append rfl rfl fun u v y hy => ?_)⟩
      simp only
      rw [exceptDag_eq, edge_addAll]
      rw [edge_addAll] at hy
      refine hy.imp_right ?_
      rintro ⟨e, he, h⟩
      exact ⟨e, List.mem_flatMap.mpr ⟨_, hstr, he⟩, h⟩
    | abbr hst' hd => obtain rfl := hm.pos; obtain rfl := hst.unique hst'; exact absurd hd hne
    | syl hst' hpl => obtain rfl := hm.pos; obtain rfl := hst.unique hst'; exact absurd hpl.1 hne
    | dot hst' hpl => obtain rfl := hm.pos; obtain rfl := hst.unique hst'; exact absurd hpl.1 hne
  | abbr hst hd ha hn hs' =>
    refine ⟨_, List.mem_singleton_self _, .inl ?_⟩
    cases hstep with
    | gap hg => obtain rfl := hm.pos; exact absurd hst.token (hg.no _ le_rfl hg.lt)
    | dict hst' hmem =>
      obtain rfl := hm.pos
      obtain rfl := hst.unique hst'
      rw [hd] at hmem; cases hmem
    | abbr hst' hd' ha' hn' =>
      obtain rfl := hm.pos
      obtain rfl := hst.unique hst'
      obtain rfl := ha.unique hct ha'
      rw [hn] at hn'; cases hn'
      refine hm.append rfl (by rw [hs']) fun u v y hy => ?_
      rw [hs']; exact hy
    | syl hst' hpl => obtain rfl := hm.pos; obtain rfl := hst.unique hst'; exact absurd ⟨_, ha⟩ hpl.2
    | dot hst' hpl => obtain rfl := hm.pos; obtain rfl := hst.unique hst'; exact absurd ⟨_, ha⟩ hpl.2
  | dot hst hpl hc hd he =>
    refine ⟨_, List.mem_singleton_self _, .inl ?_⟩
    cases hstep with
    | gap hg => obtain rfl := hm.pos; exact absurd hst.token (hg.no _ le_rfl hg.lt)
    | dict hst' hmem =>
      obtain rfl := hm.pos
      obtain rfl := hst.unique hst'
      rw [hpl.1] at hmem; cases hmem
    | abbr hst' hd' ha' hn' =>
      obtain rfl := hm.pos
      obtain rfl := hst.unique hst'
      exact absurd ⟨_, ha'⟩ hpl.2
    | syl hst' hpl' hc' hg hem =>
      obtain rfl := hm.pos
      rw [hc] at hc'; cases hc'
      rw [dotNo rfl hg] at hem; cases hem
    | dot hst' hpl' hc' =>
      obtain rfl := hm.pos
      refine ⟨rfl, hm.linked, fun u v y hy => ?_⟩
      simp only at hy ⊢
      rw [in_stretch] at hy
      rw [he]
      exact hy.imp (fun h => ⟨h.1, hm.edges _ _ _ h.2⟩) (fun h => ⟨h.1, hm.edges _ _ _ h.2⟩)
  | syl hst hpl hc hnd hg =>
    cases hstep with
    | gap hg => obtain rfl := hm.pos; exact absurd hst.token (hg.no _ le_rfl hg.lt)
    | dict hst' hmem =>
      obtain rfl := hm.pos
      obtain rfl := hst.unique hst'
      rw [hpl.1] at hmem; cases hmem
    | abbr hst' hd' ha' hn' =>
      obtain rfl := hm.pos
      obtain rfl := hst.unique hst'
      exact absurd ⟨_, ha'⟩ hpl.2
    | syl hst' hpl' hc' hg' hem =>
      obtain rfl := hm.pos
      obtain rfl := hm.linked
      obtain rfl := hst.unique hst'
      rw [hc] at hc'; cases hc'
      rw [hg] at hg'; cases hg'
      exact ⟨_, List.mem_map.mpr ⟨_, hem, rfl⟩, .inl (hm.append rfl rfl fun _ _ _ h => h)⟩
    | dot hst' hpl' hc' =>
      obtain rfl := hm.pos
      rw [hc] at hc'; cases hc'
      exact absurd rfl hnd

end
end Thpronun
