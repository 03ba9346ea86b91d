import Verif.Spec.Voiced
import Verif.Lemmas.Unheard

/-! # Vowel and tone of a spelled syllable are written -/

namespace Thpronun.Voiced
open Res Spec DAG Heard

section
variable {ct : CType} {w : U16Str} {t : Nat}

/-- Vowel sign or tone mark. -/
abbrev VM (c : Nat) : Prop := c ∈ vowelSigns ++ toneMarks

/-- `l` are the vowel signs and `mk` the tone marks from `j` to before `k`. -/
def Wr (w : U16Str) (j k : Nat) (l mk : U16Str) : Prop :=
  j ≤ k ∧ ((piece w j k).filter fun c => c ∈ vowelSigns) = l ∧ ((piece w j k).filter fun c => c ∈ toneMarks) = mk

theorem vm_range {c : Nat} (h : VM c) : 0x0e30 ≤ c ∧ c ≤ 0x0e4b := by
  have : ∀ c ∈ vowelSigns ++ toneMarks, 0x0e30 ≤ c ∧ c ≤ 0x0e4b := by decide
  exact this c h

theorem piece_self {j : Nat} : piece w j j = [] := by simp [piece]

theorem piece_succ {j c : Nat} (h : w[j]? = some c) : piece w j (j + 1) = [c] := by
  unfold piece
  obtain ⟨hl, rfl⟩ := List.getElem?_eq_some_iff.mp h
  rw [List.drop_eq_getElem_cons hl, show j + 1 - j = 1 by omega]
  rfl

theorem piece_append {i j k : Nat} (h1 : i ≤ j) (h2 : j ≤ k) : piece w i j ++ piece w j k = piece w i k := by
  unfold piece
  have : w.drop j = (w.drop i).drop (j - i) := by rw [List.drop_drop, show i + (j - i) = j by omega]
  rw [this, show k - i = (j - i) + (k - j) by omega, List.take_add]

theorem wr_nil {j : Nat} : Wr w j j [] [] := ⟨Nat.le_refl _, by rw [piece_self]; rfl, by rw [piece_self]; rfl⟩

theorem wr_append {i j k : Nat} {l mk l' mk' : U16Str} (h : Wr w i j l mk) (h' : Wr w j k l' mk') :
    Wr w i k (l ++ l') (mk ++ mk') := by
  refine ⟨h.1.trans h'.1, ?_, ?_⟩ <;> rw [← piece_append h.1 h'.1, List.filter_append]
  · rw [h.2.1, h'.2.1]
  · rw [h.2.2, h'.2.2]

/-- A vowel sign. -/
theorem wr_sign {j c : Nat} (h : At w t j c) (hc : c ∈ vowelSigns) : Wr w j (j + 1) [c] [] := by
  have : ∀ c ∈ vowelSigns, c ∉ toneMarks := by decide
  have := this c hc
  refine ⟨Nat.le_succ _, ?_, ?_⟩ <;> rw [piece_succ h.2]
  · simp [hc]
  · simp [this]

/-- Any other character. -/
theorem wr_other {j c : Nat} (h : w[j]? = some c) (hc : ¬ VM c) : Wr w j (j + 1) [] [] := by
  have h1 : c ∉ vowelSigns := fun h => hc (List.mem_append_left _ h)
  have h2 : c ∉ toneMarks := fun h => hc (List.mem_append_right _ h)
  refine ⟨Nat.le_succ _, ?_, ?_⟩ <;> rw [piece_succ h]
  · simp [h1]
  · simp [h2]

/-- A rime from `j` on after the leading vowel `ld`; `R`: ฤ or ฦ is in the onset. -/
def RV (w : U16Str) (R : Prop) (ld : U16Str) (j : Nat) (r : Rime) : Prop :=
  ∃ e l mk cs, Wr w j e l mk ∧ e ≤ r.stop ∧ (ld ++ l, r.vowel, cs) ∈ spellings ∧ (HasOne w j r.stop cs ∨ (R ∧ cs = u!"ฤฦ")) ∧
    MarkIs mk r.mark ∧ SilentRest w r.final e r.stop

theorem rest_nil {f : EndConsClass} {e : Nat} : SilentRest w f e e := fun m c h1 h2 => by omega

theorem rv_back {R : Prop} {ld : U16Str} {i j : Nat} {r : Rime} (h : Wr w i j [] []) (h' : RV w R ld j r) : RV w R ld i r := by
  obtain ⟨e, l, mk, cs, h1, h2, h3, h4, h5⟩ := h'
  refine ⟨e, l, mk, cs, wr_append h h1, h2, h3, h4.imp (fun h4 => ?_) id, h5⟩
  exact h4.imp id fun ⟨m, c, k1, k2⟩ => ⟨m, c, h.1.trans k1, k2⟩

variable (hct : ct.Ok)
include hct

theorem cons_not {c : Nat} (h : ct.isCons c = true) : ¬ VM c := fun hv => by
  have := vm_range hv
  have := hct.cons c h
  omega

theorem wr_cons {j c : Nat} (h : w[j]? = some c) (hc : ct.isCons c = true) : Wr w j (j + 1) [] [] :=
  wr_other h (cons_not hct hc)

theorem wr_silent {j : Nat} (h : Silent ct w t j) : Wr w j (j + 2) [] [] := by
  obtain ⟨c, h1, h2, h3⟩ := h
  exact wr_append (wr_cons hct h1.2 h2) (wr_other h3.2 (by decide))

theorem wr_skip {j k : Nat} (h : Skip ct w t j k) : Wr w j k [] [] := by
  rcases h with ⟨h, rfl⟩ | ⟨-, rfl⟩
  · exact wr_silent hct h
  · exact wr_nil

theorem rest_of {f : EndConsClass} {j k : Nat} (h : Wr w j k [] []) : SilentRest w f j k := by
  intro m c h1 h2 h3 h4
  have hm : c ∈ piece w j k := List.mem_of_getElem? (piece_at h3 h1 h2)
  obtain ⟨-, k1, k2⟩ := h
  rw [List.filter_eq_nil_iff] at k1 k2
  rcases List.mem_append.mp h4 with h4 | h4
  · exact absurd (decide_eq_true h4) (k1 c hm)
  · exact absurd (decide_eq_true h4) (k2 c hm)

theorem rest_append {f : EndConsClass} {i j k : Nat} (h : SilentRest w f i j) (hij : i ≤ j) (h' : SilentRest w f j k) :
    SilentRest w f i k := by
  intro m c h1 h2 h3 h4
  rcases Nat.lt_or_ge m j with h5 | h5
  · exact h m c h1 h5 h3 h4
  · obtain ⟨k1, k2⟩ := h' m c h5 h2 h3 h4
    exact ⟨k1, k2.imp id fun ⟨g1, g2⟩ => ⟨by omega, g2⟩⟩

theorem rest_silent2 {f : EndConsClass} {j : Nat} {A : Nat → Prop} (h : Silent2 ct w t A j)
    (hA : ∀ d, A d → ct.isCons d = true ∨ IU d) : SilentRest w f j (j + 3) := by
  obtain ⟨c, d, h1, h2, h3, h4, h5⟩ := h
  intro m a g1 g2 g3 g4
  rcases (by omega : m = j ∨ m = j + 1 ∨ m = j + 2) with rfl | rfl | rfl
  · rw [h1.2] at g3
    cases g3
    exact absurd g4 (cons_not hct h2)
  · rw [h3.2] at g3
    cases g3
    rcases hA _ h4 with h4 | h4
    · exact absurd g4 (cons_not hct h4)
    · exact ⟨h4, .inl h5.2⟩
  · rw [h5.2] at g3
    cases g3
    exact absurd g4 (by decide)

theorem rest_skipIU {f : EndConsClass} {j k : Nat} (h : SkipIU ct w t j k) : SilentRest w f j k := by
  rcases h with ⟨h, rfl⟩ | ⟨-, rfl⟩
  · exact rest_silent2 hct h fun d hd => .inr hd
  · exact rest_nil

theorem rest_skipAny {f : EndConsClass} {j k : Nat} (h : SkipAny ct w t j k) : SilentRest w f j k := by
  rcases h with ⟨h, rfl⟩ | ⟨-, h, rfl⟩ | ⟨-, -, rfl⟩
  · exact rest_of hct (wr_silent hct h)
  · exact rest_silent2 hct h fun d hd => hd
  · exact rest_nil

theorem wr_mark {j k : Nat} {m : Tone} (h : MarkAt ct w t j m k) : ∃ mk, Wr w j k [] mk ∧ MarkIs mk m := by
  rcases h with ⟨c, h1, -, h2, rfl⟩ | ⟨-, rfl, rfl⟩
  · have : ∀ x ∈ marks, x.1 ∈ toneMarks ∧ x.1 ∉ vowelSigns := by decide
    obtain ⟨k1, k2⟩ := this _ h2
    refine ⟨[c], ⟨Nat.le_succ _, ?_, ?_⟩, .inr ⟨c, rfl, h2⟩⟩ <;> rw [piece_succ h1.2]
    · simp [show c ∉ vowelSigns from k2]
    · simp [show c ∈ toneMarks from k1]
  · exact ⟨[], wr_nil, .inl ⟨rfl, rfl⟩⟩

/-! ## Ends of rimes -/

/-- What follows the vowel signs. -/
def Ends (w : U16Str) (v : Vowel) (m : Tone) (j : Nat) (r : Rime) : Prop :=
  r.vowel = v ∧ r.mark = m ∧ j ≤ r.stop ∧ SilentRest w r.final j r.stop

variable {v : Vowel} {m : Tone}

omit hct in
theorem ends_here {j : Nat} {b : Bool} {f : EndConsClass} : Ends w v m j ⟨j, b, v, f, m⟩ := ⟨rfl, rfl, Nat.le_refl _, rest_nil⟩

theorem ends_open {j : Nat} {f : EndConsClass} {r : Rime} (h : Open ct w t j v f m r) : Ends w v m j r := by
  obtain ⟨k, h1, rfl⟩ := h
  exact ⟨rfl, rfl, skip_le h1, rest_of hct (wr_skip hct h1)⟩

theorem ends_shut {j : Nat} {excl : U16Str} {r : Rime} (h : Shut ct w t j excl v m r) : Ends w v m j r := by
  obtain ⟨k, b, f, ⟨c, ⟨h1, h2, -⟩, -, h3⟩, rfl⟩ := h
  exact ⟨rfl, rfl, by have := skipAny_le h3; show j ≤ k; omega,
    rest_append hct (rest_of hct (wr_cons hct h1.2 h2)) (Nat.le_succ _) (rest_skipAny hct h3)⟩

theorem ends_shutX {j : Nat} {excl : U16Str} {r : Rime} (h : ShutX ct w t j excl v m r) : Ends w v m j r := by
  obtain ⟨k, b, f, ⟨c, ⟨h1, h2, h3, -⟩, h4⟩, rfl⟩ := h
  rcases h4 with ⟨-, h4⟩ | ⟨-, ⟨-, rfl, -, h4⟩ | ⟨-, rfl, -⟩⟩
  · exact ⟨rfl, rfl, by have := skipAny_le h4; show j ≤ k; omega,
      rest_append hct (rest_of hct (wr_cons hct h1.2 h2)) (Nat.le_succ _) (rest_skipAny hct h4)⟩
  · refine ⟨rfl, rfl, by show j ≤ j + 2; omega, ?_⟩
    rcases h4 with ⟨h4, h5, -⟩ | ⟨d, h4, h5, h6⟩
    · exact rest_of hct (wr_append (wr_cons hct h1.2 h2) (wr_cons hct h4.2 h5))
    · intro m a g1 g2 g3 g4
      change m < j + 2 at g2
      rcases (by omega : m = j ∨ m = j + 1) with rfl | rfl
      · rw [h1.2] at g3
        cases g3
        exact absurd g4 (cons_not hct h2)
      · rw [h4.2] at g3
        cases g3
        exact ⟨h5, .inr ⟨by omega, c, h1.2, h6, h3⟩⟩
  · exact ⟨rfl, rfl, Nat.le_refl _, rest_nil⟩

/-- Letters that are not heard before the end. -/
theorem ends_back {i j : Nat} {r : Rime} (h : Wr w i j [] []) (h' : Ends w v m j r) : Ends w v m i r :=
  ⟨h'.1, h'.2.1, h.1.trans h'.2.2.1, rest_append hct (rest_of hct h) h.1 h'.2.2.2⟩

/-- Signs, a tone mark, signs. -/
theorem rv_of {R : Prop} {ld : U16Str} {i j k n : Nat} {l l' cs : U16Str} {r : Rime} (h1 : Wr w i j l []) (h2 : MarkAt ct w t j m k)
    (h3 : Wr w k n l' []) (h4 : Ends w v m n r) (hs : (ld ++ (l ++ l'), v, cs) ∈ spellings)
    (hn : HasOne w k n cs ∨ (R ∧ cs = u!"ฤฦ")) : RV w R ld i r := by
  obtain ⟨mk, k1, k2⟩ := wr_mark hct h2
  obtain ⟨rfl, rfl, k3, k4⟩ := h4
  refine ⟨n, l ++ l', mk, cs, ?_, k3, hs, ?_, k2, k4⟩
  · have := wr_append (wr_append h1 k1) h3
    simpa using this
  · exact hn.imp (fun h => h.imp id fun ⟨m, c, g1, g2, g3⟩ =>
      ⟨m, c, h1.1.trans (k1.1.trans g1), by omega, g3⟩) id

/-- Signs without tone mark. -/
theorem rv_plain {R : Prop} {ld : U16Str} {i n : Nat} {l cs : U16Str} {r : Rime} (h1 : Wr w i n l [])
    (h4 : Ends w v .SAMAN n r) (hs : (ld ++ l, v, cs) ∈ spellings) (hn : HasOne w i n cs ∨ (R ∧ cs = u!"ฤฦ")) : RV w R ld i r := by
  obtain ⟨rfl, h5, k3, k4⟩ := h4
  exact ⟨n, l, [], cs, h1, k3, hs, hn.imp (fun h => h.imp id fun ⟨m, c, g1, g2, g3⟩ => ⟨m, c, g1, by omega, g3⟩) id,
    .inl ⟨rfl, h5⟩, k4⟩

omit hct in
theorem any {R : Prop} {i n : Nat} : HasOne w i n [] ∨ (R ∧ ([] : U16Str) = u!"ฤฦ") := .inl (.inl rfl)

omit hct in
theorem one {R : Prop} {i n q c : Nat} {cs : U16Str} (h : At w t q c) (h1 : i ≤ q) (h2 : q < n) (h3 : c ∈ cs) :
    HasOne w i n cs ∨ (R ∧ cs = u!"ฤฦ") := .inl (.inr ⟨q, c, h1, h2, h.2, h3⟩)

/-! ## Rimes -/

theorem rv_han {R : Prop} {j : Nat} {r : Rime} (h : HanRime ct w t j r) : RV w R [] j r := by
  obtain ⟨h1, m, k, h2, h3⟩ := h
  have s := wr_sign h1 (by decide)
  rcases h3 with ⟨k1, k2, h⟩ | ⟨k1, -, h⟩ | ⟨-, -, h⟩ | ⟨-, -, h⟩
  · exact rv_of (cs := u!"ว") hct s h2 (wr_append (wr_other k1.2 (by decide)) (wr_sign k2 (by decide))) (ends_open hct h)
      (by decide) (one k1 (Nat.le_refl _) (by omega) (by decide))
  · exact rv_of (cs := u!"ว") hct s h2 (wr_other k1.2 (by decide)) (ends_open hct h) (by decide)
      (one k1 (Nat.le_refl _) (by omega) (by decide))
  · exact rv_of hct s h2 wr_nil (ends_shutX hct h) (by decide) any
  · exact rv_of hct s h2 wr_nil (ends_shut hct h) (by decide) any

theorem ends_signFinal {k : Nat} {r : Rime} (h : SignFinal ct w t k v m r) : Ends w v m k r := by
  rcases h.2 with ⟨-, k1, h⟩ | ⟨-, -, h⟩ | ⟨-, -, h⟩ | ⟨-, -, -, h⟩
  · exact ends_back hct (wr_other k1.2 (by decide)) (ends_open hct h)
  · exact ends_shut hct h
  · exact ends_shut hct h
  · exact ends_shutX hct h

theorem rv_sign {R : Prop} {j : Nat} {r : Rime} (h : SignRime ct w t j r) : RV w R [] j r := by
  obtain ⟨c, v, m, k, h0, -, hv, h1, h2⟩ := h
  have : ∀ x ∈ signVowels, x.1 ∈ vowelSigns ∧ ([x.1], x.2, []) ∈ spellings := by decide
  obtain ⟨k1, k2⟩ := this _ hv
  refine rv_of (v := v) hct (wr_sign h0 k1) h1 wr_nil ?_ k2 any
  rcases h2 with ⟨-, -, h⟩ | ⟨-, ⟨k1, rfl | h⟩ | ⟨-, k1, rfl⟩ | ⟨-, -, rfl | h⟩⟩
  · exact ends_signFinal hct h
  · exact ends_back hct (wr_silent hct k1) ends_here
  · exact ends_back hct (wr_silent hct k1) (ends_signFinal hct h)
  · exact ⟨rfl, rfl, by show k ≤ k + 3; omega, rest_silent2 hct k1 fun d hd => .inr hd⟩
  · exact ends_here
  · exact ends_signFinal hct h

theorem rv_shortO {R : Prop} {j : Nat} {r : Rime} (h : ShortORime ct w t j r) : RV w R [] j r := by
  obtain ⟨h1, h2, k, h3, h4⟩ := h
  exact rv_plain (cs := u!"อ") hct (wr_append (wr_sign h1 (by decide)) (wr_append (wr_other h2.2 (by decide)) (wr_skip hct h3)))
    (ends_shut hct h4) (by decide) (one h2 (by omega) (by have := skip_le h3; omega) (by decide))

theorem ends_ro {o : Onset} {k : Nat} {r : Rime} (h : RoRime ct w t o k m r) :
    ∃ v, Ends w v m (k + 1) r ∧ (v = VW.AUU ∨ v = VW.A) := by
  obtain ⟨-, h2⟩ := h
  rcases h2 with ⟨-, h2⟩ | ⟨k', h2, h3, h4⟩
  · exact ⟨_, ends_open hct h2, .inl rfl⟩
  · have hs : Wr w (k + 1) k' [] [] := by
      split at h2
      · rw [h2]; exact wr_nil
      · exact wr_skip hct h2
    have := wr_append hs (wr_other h3.2 (by decide))
    rcases h4 with h4 | ⟨-, h4⟩
    · exact ⟨_, ends_back hct this (ends_open hct h4), .inr rfl⟩
    · exact ⟨_, ends_back hct this (ends_shutX hct h4), .inr rfl⟩

theorem rv_plainRime {R : Prop} {o : Onset} {l : Bool} {j : Nat} {r : Rime}
    (hR : ∀ v, o.inherent = some v → R ∧ (v = VW.I ∨ v = VW.UE)) (h : PlainRime ct w t o l j r) : RV w R [] j r := by
  obtain ⟨m, k, h1, h2⟩ := h
  rcases h2 with ⟨k1, k2⟩ | ⟨k1, k2 | ⟨k', k2, k3⟩⟩ | ⟨k1, k2⟩ | ⟨k1, k2⟩ | ⟨k1, k2 | ⟨k', k2, k3⟩⟩ | h2 |
    ⟨-, -, -, h2⟩ | ⟨v, c, hv, -, -, -, h2⟩
  · exact rv_of hct wr_nil h1 (wr_sign k1 (by decide)) (ends_open hct k2) (by decide) any
  · exact rv_of hct wr_nil h1 (wr_sign k1 (by decide)) (ends_open hct k2) (by decide) any
  · exact rv_of hct wr_nil h1 (wr_sign k1 (by decide)) (ends_back hct (wr_skip hct k2) (ends_shutX hct k3)) (by decide) any
  · exact rv_of hct wr_nil h1 (wr_sign k1 (by decide)) (ends_open hct k2) (by decide) any
  · exact rv_of (cs := u!"ว") hct wr_nil h1 (wr_other k1.2 (by decide)) (ends_shut hct k2) (by decide)
      (one k1 (Nat.le_refl _) (by omega) (by decide))
  · exact rv_of (cs := u!"อรบ") hct wr_nil h1 (wr_other k1.2 (by decide)) (ends_open hct k2) (by decide)
      (one k1 (Nat.le_refl _) (by omega) (by decide))
  · exact rv_of (cs := u!"อรบ") hct wr_nil h1 (wr_other k1.2 (by decide)) (ends_back hct (wr_skip hct k2) (ends_shut hct k3))
      (by decide) (one k1 (Nat.le_refl _) (by omega) (by decide))
  · have hr := wr_other (w := w) h2.1.2 (by decide)
    obtain ⟨v, he, rfl | rfl⟩ := ends_ro hct h2
    · exact rv_of (cs := u!"อรบ") hct wr_nil h1 hr he (by decide) (one h2.1 (Nat.le_refl _) (by omega) (by decide))
    · exact rv_of hct wr_nil h1 hr he (by decide) any
  · exact rv_of hct wr_nil h1 wr_nil (ends_shut hct h2) (by decide) any
  · obtain ⟨hr, hv⟩ := hR v hv
    have hs : (([] : U16Str) ++ ([] ++ []), v, u!"ฤฦ") ∈ spellings := by rcases hv with rfl | rfl <;> decide
    rcases h2 with rfl | h2
    · exact rv_of hct wr_nil h1 wr_nil ends_here hs (.inr ⟨hr, rfl⟩)
    · exact rv_of hct wr_nil h1 wr_nil (ends_shutX hct h2) hs (.inr ⟨hr, rfl⟩)

theorem rv_consRime {R : Prop} {o : Onset} {l : Bool} {r : Rime} (hR : ∀ v, o.inherent = some v → R ∧ (v = VW.I ∨ v = VW.UE))
    (h : ConsRime ct w t o l r) : RV w R [] o.stop r := by
  rcases h with h | h | h | h
  · exact rv_han hct h
  · exact rv_sign hct h
  · exact rv_shortO hct h
  · exact rv_plainRime hct hR h

theorem rv_mid {R : Prop} {a b : Nat} {v v' : Vowel} {j : Nat} {f : Bool} {r : Rime} (h : MidRime ct w t a b v v' j f r)
    (ha : a ∈ vowelSigns) (hb : ¬ VM b) (hv : ([ch!"เ", a, ch!"ะ"], v, [b]) ∈ spellings) (hv' : ([ch!"เ", a], v', [b]) ∈ spellings) :
    RV w R u!"เ" j r := by
  obtain ⟨h0, m, k, h1, h4, h⟩ := h
  have s := wr_sign h0 ha
  have s' := wr_other (w := w) h4.2 hb
  have hb : ∀ {n}, k + 1 ≤ n → HasOne w k n [b] ∨ (R ∧ [b] = u!"ฤฦ") := fun hn =>
    one h4 (Nat.le_refl _) (by omega) (List.mem_singleton.mpr rfl)
  rcases h with ⟨h5, h2⟩ | ⟨-, h2 | ⟨k', h2, h3⟩⟩
  · exact rv_of hct s h1 (wr_append s' (wr_sign h5 (by decide))) (ends_open hct h2) hv (hb (by omega))
  · exact rv_of hct s h1 s' (ends_open hct h2) hv' (hb (by omega))
  · have h6 := wr_append s' (wr_skip hct h2)
    have := skip_le h2
    cases f
    · exact rv_of hct s h1 h6 (ends_shut hct h3) hv' (hb this)
    · exact rv_of hct s h1 h6 (ends_shutX hct h3) hv' (hb this)

theorem rv_e {R : Prop} {o : Onset} {r : Rime} (h : ERime ct w t o r) : RV w R u!"เ" o.stop r := by
  rcases h with ⟨-, -, rfl⟩ | ⟨h0, m, k, k', h1, h2, h3⟩ | h | h | ⟨h0, h⟩ | ⟨-, m, k, h1, h2⟩
  · exact rv_plain hct wr_nil ends_here (by decide) any
  · exact rv_of hct (wr_sign h0 (by decide)) h1 (wr_skip hct h2) (ends_shut hct h3) (by decide) any
  · exact rv_mid hct h (by decide) (by decide) (by decide) (by decide)
  · exact rv_mid hct h (by decide) (by decide) (by decide) (by decide)
  · exact rv_plain hct (wr_sign h0 (by decide)) (ends_shut hct h) (by decide) any
  · rcases h2 with ⟨-, rfl⟩ | ⟨k1, ⟨-, h⟩ | ⟨k2, h⟩ | ⟨-, h⟩⟩ | ⟨k1, -, h⟩ | ⟨k1, ⟨k2, h⟩ | ⟨-, h⟩⟩ | ⟨k1, -, h⟩ |
      ⟨c, -, -, -, -, -, h | ⟨k', h2, h⟩⟩
    · exact rv_of hct wr_nil h1 wr_nil ends_here (by decide) any
    · exact rv_of hct wr_nil h1 wr_nil (ends_open hct h) (by decide) any
    · exact rv_of (cs := u!"อ") hct wr_nil h1 (wr_append (wr_other k1.2 (by decide)) (wr_sign k2 (by decide))) (ends_open hct h)
        (by decide) (one k1 (Nat.le_refl _) (by omega) (by decide))
    · exact rv_of (cs := u!"อย") hct wr_nil h1 (wr_other k1.2 (by decide)) (ends_open hct h) (by decide)
        (one k1 (Nat.le_refl _) (by omega) (by decide))
    · exact rv_of hct wr_nil h1 (wr_sign k1 (by decide)) (ends_open hct h) (by decide) any
    · exact rv_of hct wr_nil h1 (wr_append (wr_sign k1 (by decide)) (wr_sign k2 (by decide))) (ends_open hct h) (by decide) any
    · exact rv_of hct wr_nil h1 (wr_sign k1 (by decide)) (ends_open hct h) (by decide) any
    · exact rv_of (cs := u!"อย") hct wr_nil h1 (wr_other k1.2 (by decide)) (ends_open hct h) (by decide)
        (one k1 (Nat.le_refl _) (by omega) (by decide))
    · exact rv_of hct wr_nil h1 wr_nil (ends_open hct h) (by decide) any
    · exact rv_of hct wr_nil h1 (wr_skip hct h2) (ends_shutX hct h) (by decide) any

theorem rv_lead {R : Prop} {a j : Nat} {r : Rime} (h : LeadRime ct w t a j r) : RV w R [a] j r ∧ a ∈ vowelSigns := by
  obtain ⟨m, k, h1, h2⟩ := h
  rcases h2 with ⟨rfl, h⟩ | ⟨rfl, h⟩ | ⟨rfl, h⟩ | ⟨rfl, h⟩ <;> refine ⟨?_, by decide⟩
  · rcases h with ⟨k1, h⟩ | ⟨k1, h⟩ | ⟨-, -, h | ⟨k', h2, h⟩⟩
    · exact rv_of hct wr_nil h1 (wr_sign k1 (by decide)) (ends_open hct h) (by decide) any
    · exact rv_of hct wr_nil h1 (wr_sign k1 (by decide)) (ends_shut hct h) (by decide) any
    · exact rv_of hct wr_nil h1 wr_nil (ends_open hct h) (by decide) any
    · exact rv_of hct wr_nil h1 (wr_skip hct h2) (ends_shut hct h) (by decide) any
  · rcases h with ⟨k1, ⟨h, rfl⟩ | ⟨-, k', h, rfl⟩⟩ | ⟨-, ⟨h, rfl | h'⟩ | ⟨-, h, rfl⟩ | ⟨-, -, rfl | h⟩⟩
    · exact rv_of hct wr_nil h1 (wr_append (wr_sign k1 (by decide)) (wr_silent hct h)) ends_here (by decide) any
    · exact rv_of (v := VW.O) hct wr_nil h1 (wr_sign k1 (by decide)) ⟨rfl, rfl, skipIU_le h, rest_skipIU hct h⟩ (by decide) any
    · exact rv_of hct wr_nil h1 (wr_silent hct h) ends_here (by decide) any
    · exact rv_of hct wr_nil h1 (wr_silent hct h) (ends_shutX hct h') (by decide) any
    · exact rv_of (v := VW.OO) hct wr_nil h1 wr_nil
        ⟨rfl, rfl, by show k ≤ k + 3; omega, rest_silent2 hct h fun d hd => .inr hd⟩ (by decide) any
    · exact rv_of hct wr_nil h1 wr_nil ends_here (by decide) any
    · exact rv_of hct wr_nil h1 wr_nil (ends_shutX hct h) (by decide) any
  · rcases h with h | ⟨-, h, -, rfl⟩
    · exact rv_of hct wr_nil h1 wr_nil (ends_open hct h) (by decide) any
    · exact rv_of hct wr_nil h1 (wr_other h.2 (by decide)) ends_here (by decide) any
  · rcases h with h | ⟨h, -⟩
    · exact rv_of hct wr_nil h1 wr_nil (ends_open hct h) (by decide) any
    · cases h

theorem rv_ru {R : Prop} (hR : R) {i : Nat} {r : Rime} (h : RuRime ct w t i r) : RV w R [] (i + 1) r := by
  rcases h with ⟨-, rfl⟩ | ⟨h, rfl⟩ | ⟨d, -, -, ⟨-, rfl⟩ | ⟨-, h⟩⟩
  · exact rv_plain hct wr_nil ends_here (by decide) (.inr ⟨hR, rfl⟩)
  · rcases h with h | h
    · exact rv_plain hct (wr_sign h (by decide)) ends_here (by decide) (.inr ⟨hR, rfl⟩)
    · exact rv_plain hct (wr_sign h (by decide)) ends_here (by decide) (.inr ⟨hR, rfl⟩)
  · exact rv_plain hct wr_nil ends_here (by decide) (.inr ⟨hR, rfl⟩)
  · refine rv_plain (cs := u!"ฤฦ") hct wr_nil (ends_shutX hct h) ?_ (.inr ⟨hR, rfl⟩)
    split <;> decide

/-! ## Onsets -/

/-- The initial consonants of an onset at `i`, with the class that decides the tone. -/
def OV (w : U16Str) (i : Nat) (o : Onset) : Prop :=
  (o.pre = none ∧ ∃ n c, (n = i ∨ (n = i + 1 ∧ w[i]? = some ch!"ห")) ∧ w[n]? = some c ∧ Heard [] c o.sound ∧
    ToneLetter w n o.cls) ∨
  (∃ s cls u c c', o.pre = some (openSyl s cls u) ∧ (u = VW.A ∨ u = VW.AUU) ∧ w[i]? = some c ∧ Heard [] c s ∧
    c ∈ classLetters cls ∧ w[i + 1]? = some c' ∧ Heard [] c' o.sound ∧ ToneLetter w (i + 1) o.cls ∧ c' < 0x0e40)

omit hct in
theorem ov_one {i c : Nat} {k : Nat} {snd : InitConsSound} {cls : InitConsClass} {s : SecInitCons} {v : Option Vowel} (h1 : w[i]? = some c)
    (hc : Letter ct c snd cls) : OV w i ⟨k, none, snd, cls, s, v⟩ :=
  .inl ⟨rfl, i, c, .inl rfl, h1, .inl hc.2.1, .inl ⟨c, h1, .inl hc.2.2⟩⟩

theorem ov_onset {i : Nat} {l : Bool} {o : Onset} (h : OnsetAt ct w t i l o) :
    OV w i o ∧ Wr w i o.stop [] [] ∧ (o.pre ≠ none → Wr w (i + 1) o.stop [] []) ∧
    ∀ v, o.inherent = some v → (w[i + 1]? = some ch!"ฤ" ∧ i + 1 < o.stop) ∧ (v = VW.I ∨ v = VW.UE) := by
  obtain ⟨c, snd, cls, h1, hc, rfl | ⟨d, snd2, cls2, h3, hd, -, h4⟩ | ⟨⟨h3, -⟩, h4⟩⟩ := h
  · exact ⟨ov_one h1 hc, wr_cons hct h1 hc.1, fun h => absurd rfl h, fun v h => (by cases h)⟩
  · have w1 : Wr w i (i + 2) [] [] := wr_append (wr_cons hct h1 hc.1) (wr_cons hct h3.2 hd.1)
    have w2 : Wr w (i + 1) (i + 2) [] [] := wr_cons hct h3.2 hd.1
    rcases h4 with ⟨cs, s, -, -, -, rfl⟩ | ⟨-, rfl, -, rfl⟩ | ⟨rfl, rfl, rfl⟩ | rfl
    · exact ⟨ov_one h1 hc, w1, fun h => absurd rfl h, fun v h => (by cases h)⟩
    · exact ⟨ov_one h1 hc, w1, fun h => absurd rfl h, fun v h => (by cases h)⟩
    · exact ⟨.inl ⟨rfl, i + 1, d, .inr ⟨rfl, h1⟩, h3.2, .inl hd.2.1,
        .inr ⟨i, _, d, rfl, h1, by dsimp only; decide, h3.2, .inl hd.2.2⟩⟩, w1, fun h => absurd rfl h, fun v h => (by cases h)⟩
    · refine ⟨.inr ⟨snd, cls, VW.A, c, d, rfl, .inl rfl, h1, .inl hc.2.1, hc.2.2, h3.2, .inl hd.2.1, ?_, ?_⟩, w1, fun _ => w2,
        fun v h => (by cases h)⟩
      · dsimp only
        split
        · rename_i e
          exact .inr ⟨i, c, d, rfl, h1, hc.2.2, h3.2, .inl (e ▸ hd.2.2)⟩
        · exact .inl ⟨d, h3.2, .inl hd.2.2⟩
      · have := hct.cons d hd.1
        omega
  · have hr : Heard [] ch!"ฤ" .RA := .inr (.inl ⟨rfl, rfl⟩)
    have w2 : Wr w (i + 1) (i + 2) [] [] := wr_other h3.2 (by decide)
    have w1 : Wr w i (i + 2) [] [] := wr_append (wr_cons hct h1 hc.1) w2
    have joined : ∀ s v, (v = VW.I ∨ v = VW.UE) → OV w i ⟨i + 2, none, snd, cls, s, some v⟩ ∧ Wr w i (i + 2) [] [] ∧
        ((none : Option Syl) ≠ none → Wr w (i + 1) (i + 2) [] []) ∧
        ∀ v', some v = some v' → (w[i + 1]? = some ch!"ฤ" ∧ i + 1 < i + 2) ∧ (v' = VW.I ∨ v' = VW.UE) := fun s v hv =>
      ⟨ov_one h1 hc, w1, fun h => absurd rfl h, fun v' h => ⟨⟨h3.2, by omega⟩, by cases h; exact hv⟩⟩
    have apart : ∀ cls' v, (cls' = cls ∨ cls' = .LOWS) → (v = VW.I ∨ v = VW.UE) →
        OV w i ⟨i + 2, some (openSyl snd cls VW.A), .RA, cls', SC.NONE, some v⟩ ∧ Wr w i (i + 2) [] [] ∧
        (some (openSyl snd cls VW.A) ≠ none → Wr w (i + 1) (i + 2) [] []) ∧
        ∀ v', some v = some v' → (w[i + 1]? = some ch!"ฤ" ∧ i + 1 < i + 2) ∧ (v' = VW.I ∨ v' = VW.UE) := by
      intro cls' v hcls hv
      refine ⟨.inr ⟨snd, cls, VW.A, c, _, rfl, .inl rfl, h1, .inl hc.2.1, hc.2.2, h3.2, hr, ?_, by decide⟩, w1, fun _ => w2,
        fun v' h => ⟨⟨h3.2, by omega⟩, by cases h; exact hv⟩⟩
      rcases hcls with rfl | rfl
      · exact .inr ⟨i, c, _, rfl, h1, hc.2.2, h3.2, .inr rfl⟩
      · exact .inl ⟨_, h3.2, .inr ⟨by decide, rfl⟩⟩
    rcases h4 with ⟨-, rfl⟩ | ⟨-, rfl | rfl⟩ | ⟨-, rfl⟩ | ⟨-, rfl⟩ | ⟨-, -, rfl⟩ | ⟨-, v, hv, ⟨-, rfl⟩ | rfl⟩
    · exact joined _ _ (.inl rfl)
    · exact joined _ _ (.inl rfl)
    · exact apart _ _ (.inl rfl) (.inl rfl)
    · exact joined _ _ (.inr rfl)
    · exact apart _ _ (.inr rfl) (.inr rfl)
    · exact joined _ _ (.inr rfl)
    · exact joined _ _ hv
    · exact apart _ _ (.inr rfl) hv

theorem ov_whole {i : Nat} {o : Onset} {r : Rime} (h : WholeAt ct w t i o r) :
    OV w i o ∧ (o.pre = none → RV w False [] i r) ∧ (o.pre ≠ none → RV w False [] (i + 1) r) := by
  obtain ⟨c, snd, cls, h1, hc, h2⟩ := h
  have hr : Heard [] ch!"ร" .RA := .inl (by decide)
  have hr' : Heard [] ch!"ฤ" .RA := .inr (.inl ⟨rfl, rfl⟩)
  have hi := wr_cons (j := i) hct h1 hc.1
  rcases h2 with ⟨-, rfl, rfl⟩ | ⟨rfl, -, -, -, rfl, rfl⟩ |
    ⟨h3, -, -, ⟨-, -, rfl, rfl⟩ | ⟨h4, -, rfl, rfl⟩ | ⟨h4, -, rfl, rfl⟩⟩ | ⟨⟨h3, -⟩, -, rfl, rfl⟩
  · exact ⟨ov_one h1 hc, fun _ => rv_plain hct hi ends_here (by decide) any, fun h => absurd rfl h⟩
  · exact ⟨ov_one h1 hc, fun _ => rv_plain (cs := u!"อรบ") hct hi ends_here (by decide)
      (.inl (.inr ⟨i, _, Nat.le_refl _, by omega, h1, by decide⟩)), fun h => absurd rfl h⟩
  all_goals
    refine ⟨.inr ⟨snd, cls, _, c, _, rfl, by first | exact .inl rfl | exact .inr rfl, h1, .inl hc.2.1, hc.2.2, h3.2, by assumption,
      .inl ⟨_, h3.2, by dsimp only; decide⟩, by decide⟩, fun h => (by cases h), fun _ => ?_⟩
    have w3 := wr_other (w := w) h3.2 (by decide)
  · exact rv_plain hct w3 ends_here (by decide) any
  · exact rv_plain hct (wr_append w3 (wr_sign h4 (by decide))) ends_here (by decide) any
  · exact rv_plain hct (wr_append w3 (wr_sign h4 (by decide))) ends_here (by decide) any
  · exact rv_plain (cs := u!"ฤฦ") hct w3 ends_here (by decide) (one h3 (Nat.le_refl _) (by omega) (by decide))

/-! ## Syllables -/

omit hct in
theorem rv_ru_in {R : Prop} {ld : U16Str} {j : Nat} {r : Rime} (h : RV w R ld j r)
    (hR : R → ∃ m c, j ≤ m ∧ m < r.stop ∧ w[m]? = some c ∧ c ∈ u!"ฤฦ") : RV w False ld j r := by
  obtain ⟨e, l, mk, cs, h1, h2, h3, h4, h5⟩ := h
  refine ⟨e, l, mk, cs, h1, h2, h3, .inl ?_, h5⟩
  rcases h4 with h4 | ⟨h4, rfl⟩
  · exact h4
  · exact .inr (hR h4)

omit hct in
theorem rv_le {R : Prop} {ld : U16Str} {j : Nat} {r : Rime} (h : RV w R ld j r) : j ≤ r.stop := by
  obtain ⟨e, l, mk, cs, h1, h2, -⟩ := h
  exact h1.1.trans h2

omit hct in
theorem rv_front {R : Prop} {a j : Nat} {r : Rime} (h : At w t j a) (ha : a ∈ vowelSigns) (h' : RV w R [a] (j + 1) r) : RV w R [] j r := by
  obtain ⟨e, l, mk, cs, h1, h2, h3, h4, h5⟩ := h'
  refine ⟨e, [a] ++ l, mk, cs, wr_append (wr_sign h ha) h1, h2, h3, h4.imp (fun h4 => ?_) id, h5⟩
  exact h4.imp id fun ⟨m, c, k1, k2⟩ => ⟨m, c, by omega, k2⟩

omit hct in
theorem rv_full {ld : U16Str} {j n c : Nat} {o : Onset} {r : Rime} (h : RV w False ld j r)
    (hn : n = firstCons w j ∨ (n = firstCons w j + 1 ∧ w[firstCons w j]? = some ch!"ห")) (hc : w[n]? = some c)
    (hh : Heard [] c o.sound) (ht : ToneLetter w n o.cls) : FullSyl w j ld r.stop (spoken o r) := by
  obtain ⟨e, l, mk, cs, ⟨h1, rfl, rfl⟩, h2, h3, h4, h5, h6⟩ := h
  exact ⟨rfl, n, e, o.cls, r.mark, hn, ⟨c, hc, hh⟩, ht, h1, h2, ⟨cs, h3, h4.resolve_right fun h => h.1⟩, h5, rfl, h6⟩

omit hct in
theorem firstCons_flat {p c : Nat} (hc : w[p]? = some c) (hn : ¬ (0x0e40 ≤ c ∧ c ≤ 0x0e44)) : firstCons w p = p := by
  rw [firstCons, if_neg]
  rw [hc]
  simpa using hn

omit hct in
theorem firstCons_led {p c : Nat} (hc : w[p]? = some c) (hn : 0x0e40 ≤ c ∧ c ≤ 0x0e44) : firstCons w p = p + 1 := by
  rw [firstCons, if_pos]
  rw [hc]
  simpa using hn

/-- Vowel and tone of a spelled syllable. -/
theorem spelled_voiced {p : Nat} {l : Bool} {o : Onset} {r : Rime} (h : Spelled ct w t p l o r) :
    (o.pre = none ∧ FullSyl w p [] r.stop (spoken o r)) ∨
    (∃ s, o.pre = some s ∧ FirstHalf w p (firstCons w p + 1) (piece w p (firstCons w p)) s ∧
      FullSyl w (firstCons w p + 1) (piece w p (firstCons w p)) r.stop (spoken o r)) := by
  have key : ∀ i, i = firstCons w p → OV w i o → (o.pre = none → RV w False [] p r) →
      (o.pre ≠ none → RV w False (piece w p i) (i + 1) r) →
      (o.pre = none ∧ FullSyl w p [] r.stop (spoken o r)) ∨
      (∃ s, o.pre = some s ∧ FirstHalf w p (firstCons w p + 1) (piece w p (firstCons w p)) s ∧
        FullSyl w (firstCons w p + 1) (piece w p (firstCons w p)) r.stop (spoken o r)) := by
    rintro i rfl (⟨h1, n, c, hn, h2, h3, h4⟩ | ⟨s, cls, u, c, c', h1, hu, h2, h3, h4, h5, h6, h7, h8⟩) k1 k2
    · exact .inl ⟨h1, rv_full (k1 h1) hn h2 h3 h4⟩
    · refine .inr ⟨_, h1, ⟨rfl, rfl, rfl, hu, rfl, c, cls, h2, h3, h4, rfl⟩, ?_⟩
      exact rv_full (k2 (by rw [h1]; exact Option.some_ne_none _)) (.inl (firstCons_flat h5 (by omega)).symm) h5 h6 h7
  -- an onset and a rime
  have both : ∀ (i : Nat) (ld : U16Str) (R : Prop), i = firstCons w p → piece w p i = ld → OV w i o → Wr w i o.stop [] [] →
      (o.pre ≠ none → Wr w (i + 1) o.stop [] []) → (RV w False ld i r → RV w False [] p r) → RV w R ld o.stop r →
      (R → w[i + 1]? = some ch!"ฤ" ∧ i + 1 < o.stop) → (o.pre = none ∧ FullSyl w p [] r.stop (spoken o r)) ∨
      (∃ s, o.pre = some s ∧ FirstHalf w p (firstCons w p + 1) (piece w p (firstCons w p)) s ∧
        FullSyl w (firstCons w p + 1) (piece w p (firstCons w p)) r.stop (spoken o r)) := by
    intro i ld R hi hp ho w1 w2 hf hr hR
    have hl := rv_le hr
    refine key i hi ho (fun _ => hf (rv_ru_in (rv_back w1 hr) fun hr => ?_)) (fun hn => ?_)
    · obtain ⟨g1, g2⟩ := hR hr
      exact ⟨i + 1, _, by omega, by omega, g1, by decide⟩
    · rw [hp]
      refine rv_ru_in (rv_back (w2 hn) hr) fun hr => ?_
      obtain ⟨g1, g2⟩ := hR hr
      exact ⟨i + 1, _, Nat.le_refl _, by omega, g1, by decide⟩
  obtain ⟨c, hc, h | h | h | h⟩ := h
  · have hl : ¬ (0x0e40 ≤ c ∧ c ≤ 0x0e44) := by
      have h1 := hct.cons c h.1
      omega
    have hp := (firstCons_flat hc hl).symm
    obtain ⟨h1, ⟨h2, -, h3⟩ | ⟨h2, -⟩⟩ := h
    · obtain ⟨k1, k2, k3, k4⟩ := ov_onset hct h2
      exact both p [] (w[p + 1]? = some ch!"ฤ" ∧ p + 1 < o.stop) hp piece_self k1 k2 k3 id (rv_consRime hct k4 h3) id
    · obtain ⟨k1, k2, k3⟩ := ov_whole hct h2
      exact key p hp k1 k2 fun hn => by rw [piece_self]; exact k3 hn
  · obtain ⟨rfl, ht, h2, h3⟩ := h
    obtain ⟨k1, k2, k3, k4⟩ := ov_onset hct h2
    exact both (p + 1) u!"เ" False (firstCons_led hc (by decide)).symm (piece_succ hc) k1 k2 k3
      (rv_front (t := t) ⟨by omega, hc⟩ (by decide)) (rv_e hct h3) False.elim
  · obtain ⟨h1, -, h2, h3⟩ := h
    obtain ⟨k1, k2, k3, k4⟩ := ov_onset hct h2
    obtain ⟨k5, k6⟩ := rv_lead (R := False) hct h3
    exact both (p + 1) [c] False (firstCons_led hc (hct.ld c h1)).symm (piece_succ hc) k1 k2 k3
      (rv_front (t := p + 1) ⟨by omega, hc⟩ k6) k5 False.elim
  · obtain ⟨h1, rfl, h3⟩ := h
    have hl : ¬ (0x0e40 ≤ c ∧ c ≤ 0x0e44) := by omega
    have hru : c ∈ u!"ฤฦ" := by rcases h1 with rfl | rfl <;> decide
    have k1 := rv_ru (R := True) hct trivial h3
    have hw : Wr w p (p + 1) [] [] := wr_other hc (by rcases h1 with rfl | rfl <;> decide)
    refine key p (firstCons_flat hc hl).symm (.inl ⟨rfl, p, c, .inl rfl, hc, ?_, .inl ⟨c, hc, .inr ⟨hru, rfl⟩⟩⟩)
      (fun _ => rv_ru_in (rv_back hw k1) fun _ => ⟨p, c, Nat.le_refl _, rv_le k1, hc, hru⟩) fun h => absurd rfl h
    rcases h1 with rfl | rfl
    · exact .inr (.inl ⟨rfl, rfl⟩)
    · exact .inr (.inr (.inl ⟨rfl, rfl⟩))

end

/-! ## Edges -/

section
variable {ct : CType} {w : U16Str} {look : List Nat → Option Str} {brk : List Int}

/-- Vowel and tone of an edge are those written between its places. -/
def EdgeVoiced (ct : CType) (look : List Nat → Option Str) (brk : List Int) (w : U16Str) (e : Entry Syl) : Prop :=
  ∃ a l b l', PlaceLead w e.key a l ∧ PlaceLead w e.target b l' ∧
    (OfWord look w a b ∨ (OtherText w a b e.val ∧ l = [] ∧ l' = []) ∨ (NameOf ct brk w a b e.val ∧ l = [] ∧ l' = []) ∨
     (FullSyl w a l b e.val ∧ l' = []) ∨ (e.target < 0 ∧ FirstHalf w a b l' e.val ∧ l = []))

theorem lead_unique {n : Int} {a b : Nat} {l l' : U16Str} (ha : PlaceLead w n a l) (hb : PlaceLead w n b l') : a = b ∧ l = l' := by
  unfold PlaceLead spanPos at ha hb
  rcases ha with ⟨ha, rfl⟩ | ⟨p, q, h1, h2, h3, h4, h5, rfl⟩ <;>
    rcases hb with ⟨hb, rfl⟩ | ⟨p', q', k1, k2, k3, k4, k5, rfl⟩
  · exact ⟨by omega, rfl⟩
  · omega
  · omega
  · have : p = p' := by omega
    subst this
    exact ⟨by omega, rfl⟩

theorem lead_of {n : Int} {a : Nat} (h : PlaceOf w n a) : ∃ l, PlaceLead w n a l := by
  rcases h with h | ⟨p, q, h1, h2, h3, h4, h5⟩
  · exact ⟨[], .inl ⟨h, rfl⟩⟩
  · exact ⟨_, .inr ⟨p, q, h1, h2, h3, h4, h5, rfl⟩⟩

theorem dot_vm : ¬ VM ch!"." := by decide

theorem stretch_voiced {p : Nat} {e : Entry Syl} (hp : w[p]? = some ch!".") (h : EdgeVoiced ct look brk w e) :
    EdgeVoiced ct look brk w (stretch p e) := by
  unfold stretch
  split
  · rename_i ht
    obtain ⟨a, l, b, l', h1, h2, h3⟩ := h
    rw [ht] at h2
    obtain ⟨rfl, rfl⟩ := lead_unique h2 (.inl ⟨rfl, rfl⟩)
    have hdot : ∀ {m : Nat}, m < b + 1 → m < b ∨ w[m]? = some ch!"." := by
      intro m hm
      rcases Nat.lt_or_ge m b with h | h
      · exact .inl h
      · have : m = b := by omega
        exact .inr (this ▸ hp)
    refine ⟨a, l, b + 1, [], h1, .inl ⟨by push_cast; rfl, rfl⟩, ?_⟩
    rcases h3 with ⟨i, q, k1, k2, k3, k4⟩ | ⟨⟨k1, k2⟩, k3⟩ | ⟨⟨k1, k2, k3, k4, k5, k6⟩, k7⟩ |
      ⟨⟨k1, i, f, cls, mark, k2, k3, k4, k5, k6, ⟨cs, k7, k8⟩, k9, k10, k11⟩, k12⟩ | ⟨k1, -⟩
    · exact .inl ⟨i, q, k1, k2, k3, fun m g1 g2 => (hdot g2).elim (k4 m g1) id⟩
    · refine .inr (.inl ⟨⟨k1, fun m c g1 g2 g3 => ?_⟩, k3⟩)
      rcases hdot g2 with g2 | g2
      · exact k2 m c g1 g2 g3
      · rw [g2] at g3
        cases g3
        exact dot_vm
    · exact .inr (.inr (.inl ⟨⟨k1, k2, k3, fun m g1 g2 => (hdot g2).elim (k4 m g1) id, by omega, k6⟩, k7⟩))
    · refine .inr (.inr (.inr (.inl ⟨⟨k1, i, f, cls, mark, k2, k3, k4, k5, by omega, ⟨cs, k7, ?_⟩, k9, k10, fun m c g1 g2 g3 g4 => ?_⟩,
        k12⟩)))
      · exact k8.imp id fun ⟨m, c, g1, g2, g3⟩ => ⟨m, c, g1, by omega, g3⟩
      · rcases hdot g2 with g2 | g2
        · exact k11 m c g1 g2 g3 g4
        · rw [g2] at g3
          cases g3
          exact absurd g4 dot_vm
    · omega
  · exact h

theorem words_voiced {p q : Nat} {str : SylString} {data : Str} (hl : look (piece w p q) = some data)
    (h : ∀ e ∈ wordEdges 0 0 str, ∃ a b, PlaceOf (piece w p q) e.key a ∧ PlaceOf (piece w p q) e.target b ∧
      a < b ∧ b ≤ (piece w p q).length) : ∀ e ∈ wordEdges p p str, EdgeVoiced ct look brk w e := by
  intro e he
  have h0 : movedEnd p 0 = p := by simp [movedEnd]
  have he : e ∈ wordEdges p (movedEnd p 0) str := by rw [h0]; exact he
  obtain ⟨e', h1, h2, h3, m, h4⟩ := wordEdges_moved str 0 e he
  obtain ⟨a, b, k1, k2, k3, k4⟩ := h e' h1
  have k1 := Heard.place_shift k1
  have k2 := Heard.place_shift k2
  rw [← h2] at k1
  rw [← h3] at k2
  obtain ⟨l, k5⟩ := lead_of k1
  obtain ⟨l', k6⟩ := lead_of k2
  have : (piece w p q).length ≤ q - p := by unfold piece; exact List.length_take_le _ _
  exact ⟨p + a, l, p + b, l', k5, k6, .inl ⟨p, q, by rw [hl]; exact Option.some_ne_none _, by omega, by omega, fun m g1 g2 => by omega⟩⟩

theorem names_voiced (hct : ct.Ok) {p q t : Nat} {new : List (Entry Syl)} (ht : TokenTo ct w brk p t) (ha : IsAbbr ct w p t q)
    (h : AbbrNames w p q new) : ∀ e ∈ new, EdgeVoiced ct look brk w e := by
  intro e he
  rcases h with ⟨h1, rfl⟩ | ⟨-, cs, h1, h2, h3⟩
  · cases List.mem_singleton.mp he
    have hq : q = p + 1 := by
      rcases ha.shape with ⟨n, -, h2, h3, -⟩ | ⟨h2, -⟩
      · rcases Nat.eq_zero_or_pos n with rfl | hn
        · exact h2
        · obtain ⟨c, k1, k2⟩ := h3 p (Nat.le_refl _) (by omega)
          rw [h1] at k1
          cases k1
          rw [dot_not_cons hct] at k2
          cases k2
      · exact h2
    subst hq
    refine ⟨p, [], p + 1, [], .inl ⟨rfl, rfl⟩, .inl ⟨rfl, rfl⟩, .inr (.inl ⟨⟨List.cons_ne_nil _ _, fun m c g1 g2 g3 => ?_⟩, rfl, rfl⟩)⟩
    have : m = p := by omega
    subst this
    rw [h1] at g3
    cases g3
    exact dot_vm
  · obtain ⟨i, hi⟩ := List.mem_iff_getElem?.mp he
    have hi' := (List.getElem?_eq_some_iff.mp hi).1
    have hc : cs[i]? = some (cs[i]'(by omega)) := List.getElem?_eq_getElem _
    obtain ⟨k1, k2, snd, cls, k3, k4, k5⟩ := h3 i _ e hc hi
    have hw : (piece w p q)[i]? = some (cs[i]'(by omega)) := by
      rcases h1 with h1 | ⟨h1, -⟩
      · rw [h1, List.getElem?_append_left (by omega)]
        exact hc
      · rw [h1]
        exact hc
    obtain ⟨k6, k7⟩ := piece_get hw
    refine ⟨p + i, [], if i + 1 = cs.length then q else p + i + 1, [], .inl ⟨k1, rfl⟩, .inl ⟨by rw [k2]; split <;> rfl, rfl⟩, ?_⟩
    rw [k5]
    refine .inr (.inr (.inl ⟨⟨rfl, rfl, rfl, fun m g1 g2 => ?_, by split <;> omega, ⟨p, t, q, ht, ha, by omega, k7⟩, _, cls, k6,
      .inl k3, k4, ?_⟩, rfl, rfl⟩))
    · split at g2
      · rename_i hlast
        have hm : m < w.length := by have := ha.le; have := ht.2.1; omega
        have g6 := piece_at (p := p) (List.getElem?_eq_getElem hm) (by omega) g2
        rcases h1 with h1 | ⟨h1, -⟩
        · rw [h1, List.getElem?_append_right (by omega)] at g6
          rcases Nat.eq_zero_or_pos (m - p - cs.length) with g7 | g7
          · rw [g7] at g6
            rw [List.getElem?_eq_getElem hm]
            exact g6.symm
          · rw [List.getElem?_eq_none (by simp only [List.length_cons, List.length_nil]; omega)] at g6
            cases g6
        · rw [h1, List.getElem?_eq_none (by omega)] at g6
          cases g6
      · omega
    · cases cls <;> (dsimp only; decide)

theorem step_voiced (hct : ct.Ok) (hk : SignsKnown ct) (hd : WordsHeld look w) {c c' : Config} (h : Rule ct w look brk c c')
    (hc : ∀ e ∈ c.edges, EdgeVoiced ct look brk w e) : ∀ e ∈ c'.edges, EdgeVoiced ct look brk w e := by
  intro e he
  cases h with
  | @other p l es q h =>
    rcases List.mem_append.mp he with he | he
    · exact hc e he
    · cases List.mem_singleton.mp he
      obtain ⟨h1, h2, h3, -⟩ := h
      have hl : (piece w p q).length = q - p := by simp [piece]; omega
      refine ⟨p, [], q, [], .inl ⟨rfl, rfl⟩, .inl ⟨rfl, rfl⟩, .inr (.inl ⟨⟨fun e => ?_, fun m c g1 g2 g3 g4 => ?_⟩, rfl, rfl⟩)⟩
      · change piece w p q = [] at e
        rw [e] at hl
        simp at hl
        omega
      · exact h3 m g1 g2 ⟨c, g3, .inr (hk c g4)⟩
  | word _ h2 h3 h4 =>
    rcases List.mem_append.mp he with he | he
    · exact hc e he
    · exact words_voiced h2.2.2.1 (hd _ _ _ _ _ h2.2.2.1 h3 h4) e he
  | abbr h1 _ h3 h4 =>
    rcases List.mem_append.mp he with he | he
    · exact hc e he
    · exact names_voiced hct h1 h3 h4 e he
  | @syl p l es t o r h1 h2 h3 h4 =>
    rcases List.mem_append.mp he with he | he
    · exact hc e he
    · obtain ⟨k1, k2, -⟩ := spelled_emit hct h1 h4
      have hp : p < w.length := by have := h1.1; have := h1.2.1; omega
      rcases spelled_voiced hct h4 with ⟨k3, k4⟩ | ⟨s, k3, k4, k5⟩
      · unfold spelledEdges at he
        rw [k3] at he
        cases List.mem_singleton.mp he
        exact ⟨p, [], r.stop, [], .inl ⟨rfl, rfl⟩, .inl ⟨rfl, rfl⟩, .inr (.inr (.inr (.inl ⟨k4, rfl⟩)))⟩
      · unfold spelledEdges at he
        rw [k3] at he
        have hn : PlaceLead w (spanPos p r.stop) (firstCons w p + 1) (piece w p (firstCons w p)) :=
          .inr ⟨p, r.stop, rfl, k1, k2, hp, rfl, rfl⟩
        simp only [List.mem_cons, List.not_mem_nil, or_false] at he
        rcases he with rfl | rfl
        · exact ⟨p, [], _, _, .inl ⟨rfl, rfl⟩, hn, .inr (.inr (.inr (.inr ⟨by show spanPos p r.stop < 0; unfold spanPos; omega, k4, rfl⟩)))⟩
        · exact ⟨_, _, r.stop, [], hn, .inl ⟨rfl, rfl⟩, .inr (.inr (.inr (.inl ⟨k5, rfl⟩)))⟩
  | dot _ _ _ hp =>
    obtain ⟨e', h1, rfl⟩ := List.mem_map.mp he
    exact stretch_voiced hp (hc e' h1)

theorem reading_voiced (hct : ct.Ok) (hk : SignsKnown ct) (hd : WordsHeld look w) {es : List (Entry Syl)}
    (h : RuleReading ct w look brk es) : ∀ e ∈ es, EdgeVoiced ct look brk w e := by
  obtain ⟨c, h1, -, rfl⟩ := h
  have key : ∀ {c : Config}, Relation.ReflTransGen (Rule ct w look brk) ⟨0, false, []⟩ c →
      ∀ e ∈ c.edges, EdgeVoiced ct look brk w e := by
    intro c h
    induction h with
    | refl => intro e he; cases he
    | tail _ h2 ih => exact step_voiced hct hk hd h2 ih
  exact key h1

theorem ceq_voiced {a b : Nat} {l l' : U16Str} {x y : Syl} (h : ceq x y = true) (hx : VoicedIn ct look brk w a l b l' x) :
    VoicedIn ct look brk w a l b l' y := by
  obtain ⟨h1, h2⟩ := (Syl.eq_iff x y).mp h
  rcases hx with hx | ⟨⟨h0, hx⟩, h3⟩ | ⟨⟨h0, hx⟩, h3⟩ | ⟨⟨h0, hx⟩, h3⟩ | ⟨⟨h0, hx⟩, h3⟩
  · exact .inl hx
  · exact .inr (.inl ⟨⟨h1 ▸ h0, hx⟩, h3⟩)
  all_goals obtain ⟨e1, e2, e3, e4, e5⟩ := h2 (by simp [Syl.isLiteral, h0])
  · exact .inr (.inr (.inl ⟨⟨h1 ▸ h0, by rw [← e1, ← e3, ← e4, ← e5]; exact hx⟩, h3⟩))
  · exact .inr (.inr (.inr (.inl ⟨⟨h1 ▸ h0, by rw [← e1, ← e3, ← e4, ← e5]; exact hx⟩, h3⟩)))
  · exact .inr (.inr (.inr (.inr ⟨⟨h1 ▸ h0, by rw [← e1, ← e3, ← e4, ← e5]; exact hx⟩, h3⟩)))

theorem route_voiced (hct : ct.Ok) (hk : SignsKnown ct) (hd : WordsHeld look w) : ∀ (s : List Syl) (n : Int) (a : Nat) (l : U16Str),
    PlaceLead w n a l → Route (ReadEdge ct w look brk) n w.length s → AllVoiced ct look brk w a l s
  | [], n, a, l, ha, h => by
    cases h
    exact lead_unique ha (.inl ⟨rfl, rfl⟩)
  | x :: xs, n, a, l, ha, ⟨⟨es, h1, e, h2, h3, h4, h5⟩, h⟩ => by
    obtain ⟨a', m, b, l', k1, k2, k3⟩ := reading_voiced hct hk hd h1 e h2
    rw [h3] at k1
    rw [h4] at k2
    obtain ⟨rfl, rfl⟩ := lead_unique ha k1
    refine ⟨b, l', ceq_voiced h5 ?_, route_voiced hct hk hd xs _ b l' k2 h⟩
    rcases k3 with k3 | k3 | k3 | k3 | ⟨-, k3⟩
    · exact .inl k3
    · exact .inr (.inl k3)
    · exact .inr (.inr (.inl k3))
    · exact .inr (.inr (.inr (.inl k3)))
    · exact .inr (.inr (.inr (.inr k3)))

/-! ## Signs are heard -/

theorem letters_not_vm {cls : InitConsClass} {c : Nat} (h : c ∈ classLetters cls) : ¬ VM c := by
  have : ∀ cls, ∀ c ∈ classLetters cls, ¬ VM c := by intro cls; cases cls <;> decide
  exact this cls c h

theorem firstCons_cases (a : Nat) : firstCons w a = a ∨ (firstCons w a = a + 1 ∧ ∃ c, w[a]? = some c ∧ 0x0e40 ≤ c ∧ c ≤ 0x0e44) := by
  unfold firstCons
  split
  · rename_i h
    obtain ⟨c, h1, h2⟩ := Option.any_eq_true _ _ |>.mp h
    exact .inr ⟨rfl, c, h1, by simpa using h2⟩
  · exact .inl rfl

theorem voiced_sign {m c : Nat} (hm : w[m]? = some c) (hc : c ∈ vowelSigns) (hi : c ∉ u!"ิุ") : ∀ (s : List Syl) (a : Nat) (l : U16Str),
    (a ≤ m ∨ c ∈ l) → AllVoiced ct (fun _ => none) brk w a l s →
    ∃ x ∈ s, x.literal = [] ∧ ∃ y ∈ spellings, c ∈ y.1 ∧ x.vowel = y.2.1
  | [], a, l, ha, ⟨h, hl⟩ => by
    rcases ha with ha | ha
    · have := (List.getElem?_eq_some_iff.mp hm).1
      omega
    · rw [hl] at ha
      cases ha
  | x :: xs, a, l, ha, ⟨b, l', h, h'⟩ => by
    have vm : VM c := List.mem_append_left _ hc
    have next : b ≤ m ∨ c ∈ l' → ∃ y ∈ x :: xs, y.literal = [] ∧ ∃ z ∈ spellings, c ∈ z.1 ∧ y.vowel = z.2.1 := fun hb => by
      obtain ⟨y, k1, k2⟩ := voiced_sign hm hc hi xs b l' hb h'
      exact ⟨y, List.mem_cons_of_mem _ k1, k2⟩
    by_cases hb : b ≤ m
    · by_cases hal : a ≤ m
      · exact next (.inl hb)
      · exact next (.inl hb)
    · rcases h with ⟨_, _, h, -⟩ | ⟨⟨-, h⟩, rfl, -⟩ | ⟨⟨-, -, -, h1, -, -, d, cls, h2, -, h3, -⟩, rfl, -⟩ |
        ⟨⟨h0, i, e, cls, mark, -, -, -, h1, h2, ⟨cs, h3, -⟩, -, -, h4⟩, -⟩ | ⟨⟨-, h1, h2, -, -, d, cls, h3, -, h4, -⟩, rfl⟩
      · exact absurd rfl h
      · rcases ha with ha | ha
        · exact absurd vm (h m c ha (by omega) hm)
        · cases ha
      · rcases ha with ha | ha
        · exfalso
          rcases Nat.eq_or_lt_of_le ha with e | e
          · subst e
            rw [hm] at h2
            cases h2
            exact letters_not_vm h3 vm
          · rw [h1 m e (by omega)] at hm
            cases hm
            exact dot_vm vm
        · cases ha
      · refine ⟨x, List.mem_cons_self, h0, _, h3, ?_, rfl⟩
        rcases ha with ha | ha
        · rcases Nat.lt_or_ge m e with hme | hme
          · exact List.mem_append_right _ (List.mem_filter.mpr ⟨List.mem_of_getElem? (piece_at hm ha hme), by simpa using hc⟩)
          · obtain ⟨k1, -⟩ := h4 m c hme (by omega) hm vm
            exfalso
            apply hi
            rcases k1 with rfl | rfl <;> decide
        · exact List.mem_append_left _ ha
      · rcases ha with ha | ha
        · rcases Nat.lt_or_ge m (firstCons w a) with hf | hf
          · exact next (.inr (h2 ▸ List.mem_of_getElem? (piece_at hm ha hf)))
          · exfalso
            have : m = firstCons w a := by omega
            subst this
            rw [hm] at h3
            cases h3
            exact letters_not_vm h4 vm
        · cases ha

theorem voiced_mark {m c : Nat} {mk : Tone} (hm : w[m]? = some c) (hc : (c, mk) ∈ marks) : ∀ (s : List Syl) (a : Nat) (l : U16Str),
    a ≤ m → AllVoiced ct (fun _ => none) brk w a l s →
    ∃ x ∈ s, x.literal = [] ∧ ∃ cls, x.tone = spokenTone cls x.vowel x.eCons mk
  | [], a, l, ha, ⟨h, hl⟩ => by
    have := (List.getElem?_eq_some_iff.mp hm).1
    omega
  | x :: xs, a, l, ha, ⟨b, l', h, h'⟩ => by
    have hc' : c ∈ toneMarks ∧ ¬ IU c ∧ 0x0e45 ≤ c := by
      have : ∀ x ∈ marks, x.1 ∈ toneMarks ∧ ¬ (x.1 = ch!"ิ" ∨ x.1 = ch!"ุ") ∧ 0x0e45 ≤ x.1 := by decide
      exact this _ hc
    have vm : VM c := List.mem_append_right _ hc'.1
    rcases Nat.lt_or_ge m b with hb | hb
    · rcases h with ⟨_, _, h, -⟩ | ⟨⟨-, h⟩, -⟩ | ⟨⟨-, -, -, h1, -, -, d, cls, h2, -, h3, -⟩, -⟩ |
        ⟨⟨h0, i, e, cls, mark, -, -, -, h1, h2, -, h3, h5, h4⟩, -⟩ | ⟨⟨-, h1, h2, -, -, d, cls, h3, -, h4, -⟩, rfl⟩
      · exact absurd rfl h
      · exact absurd vm (h m c ha hb hm)
      · exfalso
        rcases Nat.eq_or_lt_of_le ha with e | e
        · subst e
          rw [hm] at h2
          cases h2
          exact letters_not_vm h3 vm
        · rw [h1 m e (by omega)] at hm
          cases hm
          exact dot_vm vm
      · refine ⟨x, List.mem_cons_self, h0, cls, ?_⟩
        rcases Nat.lt_or_ge m e with hme | hme
        · have hf : c ∈ (piece w a e).filter fun c => c ∈ toneMarks :=
            List.mem_filter.mpr ⟨List.mem_of_getElem? (piece_at hm ha hme), by simpa using hc'.1⟩
          rcases h3 with ⟨h3, -⟩ | ⟨c', h3, h6⟩
          · rw [h3] at hf
            cases hf
          · rw [h3] at hf
            cases List.mem_singleton.mp hf
            have : ∀ x ∈ marks, ∀ y ∈ marks, x.1 = y.1 → x.2 = y.2 := by decide
            have e : mark = mk := this _ h6 _ hc rfl
            rw [← e]
            exact h5
        · exact absurd (h4 m c hme hb hm vm).1 hc'.2.1
      · exfalso
        rcases firstCons_cases (w := w) a with hf | ⟨hf, d', hd, hr⟩
        · have : m = firstCons w a := by omega
          subst this
          rw [hm] at h3
          cases h3
          exact letters_not_vm h4 vm
        · rcases (by omega : m = a ∨ m = firstCons w a) with rfl | rfl
          · rw [hm] at hd
            cases hd
            omega
          · rw [hm] at h3
            cases h3
            exact letters_not_vm h4 vm
    · obtain ⟨y, k1, k2⟩ := voiced_mark hm hc xs b l' hb h'
      exact ⟨y, List.mem_cons_of_mem _ k1, k2⟩

end

end Thpronun.Voiced
