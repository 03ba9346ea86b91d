import Verif.Lemmas.Json
import Verif.Lemmas.Listed
import Verif.Lemmas.Notation

/-! # Lemmas on the JSON output of a word: what is not a token ends up in a literal -/

namespace Thpronun
open Res Spec DAG

/-! ## Safe texts in the encodings -/

theorem utf8_unsafe {c : Nat} (h : c < 128) : c ∈ utf8EncodeOne c := by
  unfold utf8EncodeOne
  rw [if_pos (by omega)]
  simp

theorem utf16_unsafe {c : Nat} (h : c < 128) : c ∈ utf16EncodeOne c := by
  unfold utf16EncodeOne
  rw [if_pos (by omega)]
  simp

theorem enc8_safe_iff (cs : List Nat) : JsonSafe (enc8 cs) ↔ JsonSafe cs := by
  refine ⟨fun h c hc => ?_, enc8_safe cs⟩
  by_cases hlt : c < 128
  · exact h c (List.mem_flatMap.mpr ⟨c, hc, utf8_unsafe hlt⟩)
  · omega

theorem enc16_safe_iff (cs : List Nat) : JsonSafe (enc16 cs) ↔ JsonSafe cs := by
  refine ⟨fun h c hc => ?_, fun h b hb => ?_⟩
  · by_cases hlt : c < 128
    · exact h c (List.mem_flatMap.mpr ⟨c, hc, utf16_unsafe hlt⟩)
    · omega
  · obtain ⟨c, hc, hb⟩ := List.mem_flatMap.mp hb
    have := h c hc
    unfold utf16EncodeOne at hb
    split at hb
    · simp at hb; subst hb; exact this
    · simp at hb; omega

theorem fromBytes_safe {word : Str} {w : U16Str} (h : fromBytes word = .ok w) : JsonSafe w ↔ JsonSafe word := by
  unfold fromBytes at h
  cases hd : utf8Decode word with
  | none => rw [hd] at h; simp at h
  | some cs =>
    rw [hd] at h
    simp only [Res.ok.injEq] at h
    rw [← h, ← (utf8Decode_inv _ _ hd).2, enc8_safe_iff]
    exact enc16_safe_iff cs

theorem toBytes_safe {s : U16Str} {m : Str} (h : toBytes s = .ok m) : JsonSafe m ↔ JsonSafe s := by
  unfold toBytes at h
  cases hd : utf16Decode s with
  | none => rw [hd] at h; simp at h
  | some cs =>
    rw [hd] at h
    simp only [Res.ok.injEq] at h
    rw [← h, ← (utf16Decode_inv _ _ hd).2, enc16_safe_iff]
    exact enc8_safe_iff cs

theorem Spec.JsonSafe.sub {a b : Str} (h : JsonSafe b) (hs : ∀ x ∈ a, x ∈ b) : JsonSafe a := fun x hx => h x (hs x hx)

/-! ## Derivations -/

variable {ct : CType} {w : U16Str} {look : List Nat → Option Str} {brk : List Int}

/-- Token characters need no escapes. -/
theorem Spec.Token.safe (hct : ct.Ok) {k : Nat} (h : Token ct w k) {c : Nat} (hc : w[k]? = some c) :
    32 ≤ c ∧ c ≠ 34 ∧ c ≠ 92 := by
  obtain ⟨c', hc', ht⟩ := h
  rw [hc] at hc'
  cases hc'
  simp only [isThaiTokenChar, isWordChar, Bool.or_eq_true, decide_eq_true_eq] at ht
  rcases ht with rfl | (((h | h) | h) | h) | h
  · decide
  · have := hct.cons c h; omega
  · have := hct.vowel c h; omega
  · have := hct.tone c h; omega
  · subst h; decide
  · subst h; decide

/-- A syllable is read from token characters. -/
theorem grammar_tokens (hct : ct.Ok) {p t c : Nat} {l : Bool} {ems : List Emit} (hs : IsStop ct w brk p t)
    (hc : w[p]? = some c) (h : grammar ct w p t l c = .ok ems) {e : Emit} (he : e ∈ ems) {k : Nat} (hpk : p ≤ k)
    (hk : k < e.pos) : Token ct w k := by
  have hok := (grammar_ok hct hs.lt hs.le h e he).1
  by_cases hkt : k < t
  · exact hs.tok k hpk hkt
  have hi := hok.hi
  unfold reach at hi
  split at hi
  · rename_i hr
    obtain ⟨hld, hne, rfl⟩ := hr
    have : k = p + 1 := by omega
    subst this
    obtain ⟨o, r, ⟨c', hc', hsp⟩, -⟩ :=
      ((satP_iff _ _).mp (grammar_spelled (t := p + 1) (l := l) hct hc) ems h).1 e he
    rw [hc] at hc'
    cases hc'
    have hld' := hct.ld c hld
    rcases hsp with ⟨h, -⟩ | ⟨h, -⟩ | ⟨-, -, ⟨d, _, _, hd, hl, -⟩, -⟩ | ⟨h, -⟩
    · have := hct.cons c h; omega
    · exact absurd h hne
    · exact ⟨d, hd, by simp [isThaiTokenChar, isWordChar, hl.1]⟩
    · omega
  · omega

/-- Whatever is not a token and has been passed is in a literal. -/
theorem deriv_literals (hct : ct.Ok) {c : Config} (h : Deriv ct w look brk c) (k : Nat) (hk : k < c.pos)
    (ht : ¬ Token ct w k) {x : Nat} (hx : w[k]? = some x) : ∃ e ∈ c.edges, x ∈ e.val.literal := by
  induction h with
  | refl => simp at hk
  | tail hd hs ih =>
    cases hs with
    | @gap p l es q hg =>
      by_cases hkp : k < p
      · obtain ⟨e, he, hm⟩ := ih hkp
        exact ⟨e, List.mem_append.mpr (.inl he), hm⟩
      · refine ⟨_, List.mem_append.mpr (.inr (List.mem_singleton.mpr rfl)), ?_⟩
        show x ∈ piece w p q
        have hkq : k < q := hk
        refine List.mem_iff_getElem?.mpr ⟨k - p, ?_⟩
        unfold piece
        rw [List.getElem?_take_of_lt (by omega), List.getElem?_drop, show p + (k - p) = k by omega, hx]
    | @dict p l es t q data strs str hst hm =>
      by_cases hkp : k < p
      · obtain ⟨e, he, hm⟩ := ih hkp
        exact ⟨e, List.mem_append.mpr (.inl he), hm⟩
      · have hq : q ≤ t := by
          have := (List.mem_filter.mp hm).2
          simp only [Bool.and_eq_true, decide_eq_true_eq] at this
          exact this.1
        have hk' : k < q := hk
        exact absurd (hst.tok k (by omega) (by omega)) ht
    | @abbr p l es t q new hst hn ha =>
      by_cases hkp : k < p
      · obtain ⟨e, he, hm⟩ := ih hkp
        exact ⟨e, List.mem_append.mpr (.inl he), hm⟩
      · have := ha.le
        have hk' : k < q := hk
        exact absurd (hst.tok k (by omega) (by omega)) ht
    | @syl p l es t c' ems e hst hpl hc hg he =>
      by_cases hkp : k < p
      · obtain ⟨e, he, hm⟩ := ih hkp
        exact ⟨e, List.mem_append.mpr (.inl he), hm⟩
      · exact absurd (grammar_tokens hct hst hc hg he (by omega) hk) ht
    | @dot p l es t hst hpl hc =>
      by_cases hkp : k < p
      · obtain ⟨e, he, hm⟩ := ih hkp
        refine ⟨stretch p e, List.mem_map.mpr ⟨e, he, rfl⟩, ?_⟩
        unfold stretch
        split
        · exact hm
        · exact hm
      · have hk' : k < p + 1 := hk
        exact absurd (hst.tok k (by omega) (by have := hst.lt; omega)) ht

/-- If there is any edge, every character that needs an escape is in the literal of some edge. -/
theorem parse_literals (hct : ct.Ok) {dict : Option Dict} (hd : Holds dict look) {d : PronunDAG}
    (h : parseU16 ct w dict brk = .ok d) (hne : d.mFrom ≠ []) (hs : ∀ e ∈ d.mFrom, JsonSafe e.val.literal) :
    JsonSafe w := by
  obtain ⟨-, hE⟩ := parseU16_correct hct hd h
  obtain ⟨e, he⟩ := List.exists_mem_of_ne_nil _ hne
  obtain ⟨es, ⟨c, hder, hlen, hces⟩, -⟩ :=
    (hE e.key e.target e.val).mp ⟨e, mem_outEdges.mpr ⟨he, rfl⟩, rfl, (Syl.eq_iff _ _).mpr ⟨rfl, fun _ => ⟨rfl, rfl, rfl, rfl, rfl⟩⟩⟩
  intro x hx
  obtain ⟨k, hk⟩ := List.mem_iff_getElem?.mp hx
  by_cases ht : Token ct w k
  · exact ht.safe hct hk
  · have hkl := (List.getElem?_eq_some_iff.mp hk).1
    obtain ⟨e', he', hm⟩ := deriv_literals hct hder k (by omega) ht hk
    obtain ⟨e'', h1, h2, h3⟩ := (hE e'.key e'.target e'.val).mpr ⟨es, ⟨c, hder, hlen, hces⟩, e', by rw [← hces]; exact he',
      rfl, rfl, (Syl.eq_iff _ _).mpr ⟨rfl, fun _ => ⟨rfl, rfl, rfl, rfl, rfl⟩⟩⟩
    have hl : e''.val.literal = e'.val.literal := ((Syl.eq_iff _ _).mp h3).1
    exact hs e'' (mem_outEdges.mp h1).1 x (by rw [hl]; exact hm)

/-- Every edge is part of a listed pronunciation. -/
theorem edge_on_path (hct : ct.Ok) (hg : GoodLook look) {dict : Option Dict} (hd : Holds dict look) {d : PronunDAG}
    (h : parseU16 ct w dict brk = .ok d) {e : Entry Syl} (he : e ∈ d.mFrom) : ∃ q, MaxPath d 0 q ∧ e ∈ q := by
  have hr : ∀ n : Nat, ∀ e ∈ d.mFrom, (place e.key).toNat ≤ n → Relation.ReflTransGen (Arrow d) 0 e.key := by
    intro n
    induction n with
    | zero =>
      intro e he hn
      obtain ⟨p1, p2, -, -, hs, -⟩ := edge_inv hct hg hd h he
      rcases hs with hk | ⟨e', he', ht⟩
      · rw [hk]
      · obtain ⟨p3, p4, -⟩ := edge_inv hct hg hd h he'
        rw [ht] at p4; omega
    | succ n ih =>
      intro e he hn
      obtain ⟨p1, p2, -, -, hs, -⟩ := edge_inv hct hg hd h he
      rcases hs with hk | ⟨e', he', ht⟩
      · rw [hk]
      · obtain ⟨p3, p4, -⟩ := edge_inv hct hg hd h he'
        rw [ht] at p4
        exact (ih e' he' (by omega)).tail ⟨e', mem_outEdges.mpr ⟨he', rfl⟩, ht⟩
  obtain ⟨a, b, hp⟩ := exists_maxPath_through (acyclic_parse hct hg hd h) he (hr _ e he le_rfl)
  exact ⟨_, hp, by simp⟩

/-! ## Lattices -/

theorem sylString_eq_mem {a b : SylString} (h : SylString.eq a b = true) {y : Syl} (hy : y ∈ b) :
    ∃ x ∈ a, ceq x y = true := by
  rw [SylString.eq_iff] at h
  induction h with
  | nil => cases hy
  | @cons x z _ _ hxz _ ih =>
    rcases List.mem_cons.mp hy with rfl | hy
    · exact ⟨x, by simp, hxz⟩
    · obtain ⟨x', hx', hxy⟩ := ih hy
      exact ⟨x', by simp [hx'], hxy⟩

theorem expand_mem {c : PronunChain} {s : SylString} (h : s ∈ Spec.expand c) {x : Syl} (hx : x ∈ s) :
    ∃ f ∈ c, ∃ a ∈ f.alts, x ∈ a := by
  induction c generalizing s with
  | nil =>
    simp only [Spec.expand, List.mem_singleton] at h
    subst h; cases hx
  | cons f r ih =>
    simp only [Spec.expand, List.mem_flatMap, List.mem_map] at h
    obtain ⟨a, ha, s', hs', rfl⟩ := h
    rcases List.mem_append.mp hx with hx | hx
    · exact ⟨f, by simp, a, ha, hx⟩
    · obtain ⟨f', hf', a', ha', hxa⟩ := ih hs' hx
      exact ⟨f', by simp [hf'], a', ha', hxa⟩

end Thpronun
