import Verif.Lemmas.Spelling
import Verif.Spec.Simple

/-! # Simple syllables -/

namespace Thpronun
open Res Spec

section
variable {lead on sign mk post w : U16Str} {t j k : Nat} {m : Tone}

/-- A text of known parts: up to `j` the leading vowel and the onset, then vowel signs, an optional tone mark up to `k`,
and the rest. -/
structure Parts (lead on sign mk post w : U16Str) (t j k : Nat) (m : Tone) : Prop where
  word : w = lead ++ on ++ sign ++ mk ++ post
  onset : j = lead.length + on.length
  pos : k = j + sign.length + mk.length
  stop : t = k + post.length
  marked : Marked mk m

theorem Parts.l (h : Parts lead on sign mk post w t j k m) {i d : Nat} (hd : lead[i]? = some d) : At w t i d := by
  have hi := (List.getElem?_eq_some_iff.mp hd).1
  have h1 := h.onset
  have h2 := h.pos
  refine ⟨by have := h.stop; omega, ?_⟩
  rw [h.word, List.append_assoc, List.append_assoc, List.append_assoc, List.getElem?_append_left hi, hd]

theorem Parts.o (h : Parts lead on sign mk post w t j k m) {i d : Nat} (hd : on[i]? = some d) :
    At w t (lead.length + i) d := by
  have hi := (List.getElem?_eq_some_iff.mp hd).1
  have h1 := h.onset
  have h2 := h.pos
  refine ⟨by have := h.stop; omega, ?_⟩
  rw [h.word, List.append_assoc, List.append_assoc, List.getElem?_append_left (by simp; omega),
    List.getElem?_append_right (by simp), ← hd]
  congr 1
  simp

theorem Parts.s (h : Parts lead on sign mk post w t j k m) {i d : Nat} (hd : sign[i]? = some d) : At w t (j + i) d := by
  have hi := (List.getElem?_eq_some_iff.mp hd).1
  have h1 := h.onset
  have h2 := h.pos
  refine ⟨by have := h.stop; omega, ?_⟩
  rw [h.word, List.append_assoc, List.getElem?_append_left (by simp; omega),
    List.getElem?_append_right (by simp; omega), ← hd]
  congr 1
  simp
  omega

theorem Parts.z (h : Parts lead on sign mk post w t j k m) {i d : Nat} (hd : post[i]? = some d) : At w t (k + i) d := by
  have hi := (List.getElem?_eq_some_iff.mp hd).1
  have h1 := h.onset
  have h2 := h.pos
  refine ⟨by have := h.stop; omega, ?_⟩
  rw [h.word, List.getElem?_append_right (by simp; omega), ← hd]
  congr 1
  simp
  omega

theorem at_inj {i d d' : Nat} (h : At w t i d) (h' : At w t i d') : d = d' := by
  have := h.2.symm.trans h'.2
  exact Option.some.inj this

theorem Parts.not (h : Parts lead on sign mk post w t j k m) {i d d' : Nat} (hd : post[i]? = some d) (hne : d ≠ d') :
    ¬ At w t (k + i) d' := fun h' => hne (at_inj (h.z hd) h')

theorem not_at_end {i d : Nat} (h : t ≤ i) : ¬ At w t i d := fun h' => by have := h'.1; omega

theorem Parts.mark (h : Parts lead on sign mk post w t j k m) (h0 : ∀ d, post[0]? = some d → thaiCType.isTone d = false) :
    MarkAt thaiCType w t (j + sign.length) m k := by
  have h1 := h.onset
  have h2 := h.pos
  have h3 := h.stop
  rcases h.marked with ⟨rfl, rfl⟩ | ⟨x, hx, rfl⟩
  · refine .inr ⟨fun c hc => ?_, rfl, by simpa using h2⟩
    cases hp : post[0]? with
    | none =>
      have : post = [] := by simpa using hp
      subst post
      have := hc.1
      simp at *; omega
    | some d =>
      have h4 := h.z hp
      have : k + 0 = j + sign.length := by simpa using h2
      rw [this] at h4
      rw [at_inj hc h4]
      exact h0 d hp
  · refine .inl ⟨x, ⟨by simp at h2; omega, ?_⟩, ?_, hx, by simpa using h2⟩
    · rw [h.word, List.getElem?_append_left (by simp; omega), List.getElem?_append_right (by simp; omega)]
      have : j + sign.length - (lead ++ on ++ sign).length = 0 := by simp; omega
      rw [this]
      rfl
    · revert hx
      simp only [marks, List.mem_cons, Prod.mk.injEq, List.not_mem_nil, or_false]
      rintro (⟨rfl, -⟩ | ⟨rfl, -⟩ | ⟨rfl, -⟩ | ⟨rfl, -⟩) <;> decide

theorem not_silent_end {ct : CType} {i : Nat} (h : t ≤ i + 1) : ¬ Silent ct w t i := by
  rintro ⟨_, -, -, h'⟩
  exact not_at_end h h'

theorem not_silent2_end {ct : CType} {A : Nat → Prop} {i : Nat} (h : t ≤ i + 2) : ¬ Silent2 ct w t A i := by
  rintro ⟨_, _, -, -, -, -, h'⟩
  exact not_at_end h h'

theorem skip_end {ct : CType} {i : Nat} (h : t ≤ i + 1) : Skip ct w t i i := .inr ⟨not_silent_end h, rfl⟩

theorem skipIU_end {ct : CType} {i : Nat} (h : t ≤ i + 2) : SkipIU ct w t i i := .inr ⟨not_silent2_end h, rfl⟩

theorem open_end {ct : CType} {i : Nat} {v : Vowel} {f : EndConsClass} (h : t = i) :
    Open ct w t i v f m ⟨t, false, v, f, m⟩ := ⟨i, skip_end (by omega), by rw [h]⟩

theorem skipAny_end {ct : CType} {i : Nat} (h : t ≤ i + 1) : SkipAny ct w t i i :=
  .inr (.inr ⟨not_silent_end h, not_silent2_end (by omega), rfl⟩)

theorem shut_end {ct : CType} {i x : Nat} {v : Vowel} {f : EndConsClass} {excl : U16Str} (h : t = i + 1)
    (hx : FinalAt ct w t i excl x f) : Shut ct w t i excl v m ⟨t, false, v, f, m⟩ :=
  ⟨i + 1, false, f, ⟨x, hx, rfl, skipAny_end (by omega)⟩, by rw [h]⟩

theorem shutX_end {ct : CType} {i x : Nat} {v : Vowel} {f : EndConsClass} {excl : U16Str} (h : t = i + 1)
    (hx : FinalAt ct w t i excl x f) : ShutX ct w t i excl v m ⟨t, false, v, f, m⟩ :=
  ⟨i + 1, false, f, ⟨x, hx, .inl ⟨rfl, skipAny_end (by omega)⟩⟩, by rw [h]⟩

end

variable {snd : InitConsSound} {cls : InitConsClass} {sec : SecInitCons} {on w mk : U16Str} {t j k : Nat} {m : Tone} {o : Onset}

/-- An onset with a rime after it. -/
theorem spelled_cons (hon : OnsetAt thaiCType w t 0 false o) {r : Rime} (ht : o.stop < t)
    (h : ConsRime thaiCType w t o false r) : Spelled thaiCType w t 0 false o r := by
  have ⟨c, _, _, hc, hl, _⟩ := hon
  exact ⟨c, hc, .inl ⟨hl.1, .inl ⟨hon, ht, h⟩⟩⟩

theorem spelled_e (hon : OnsetAt thaiCType w t 1 false o) (h0 : At w t 0 ch!"เ") (ht : 1 < t) {r : Rime}
    (h : ERime thaiCType w t o r) : Spelled thaiCType w t 0 false o r :=
  ⟨_, h0.2, .inr (.inl ⟨rfl, ht, hon, h⟩)⟩

theorem spelled_lead (hon : OnsetAt thaiCType w t 1 false o) {v : Nat} (hv : thaiCType.isLdVowel v = true)
    (hne : v ≠ ch!"เ") (h0 : At w t 0 v) {r : Rime} (h : LeadRime thaiCType w t v o.stop r) :
    Spelled thaiCType w t 0 false o r :=
  ⟨_, h0.2, .inr (.inr (.inl ⟨hv, hne, hon, h⟩))⟩

theorem cons_of {c : Nat} (hc : IsConsonant c) : thaiCType.isCons c = true := by
  obtain ⟨h1, h2, h3, h4⟩ := hc
  simp [thaiCType, h1, h2, h3, h4]

theorem true_second : ∀ e ∈ trueClusters, IsConsonant e.2.1 ∧ ∃ snd2 cls2, e.2.1 ∈ soundLetters snd2 ∧
    e.2.1 ∈ classLetters cls2 := by
  intro e he
  simp only [trueClusters, List.mem_cons, List.not_mem_nil, or_false] at he
  rcases he with rfl | rfl | rfl
  · exact ⟨by decide, .RA, .LOWS, by decide, by decide⟩
  · exact ⟨by decide, .LA, .LOWS, by decide, by decide⟩
  · exact ⟨by decide, .WA, .LOWS, by decide, by decide⟩

/-- A written onset, not followed by "ร" if it ends in "ร", is an onset. -/
theorem onset_text (h : OnsetText on snd cls sec) {i : Nat} (hj : j = i + on.length)
    (ho : ∀ n d, on[n]? = some d → At w t (i + n) d)
    (hro : on.length = 2 → on[1]? = some ch!"ร" → ¬ At w t j ch!"ร") :
    OnsetAt thaiCType w t i false ⟨j, none, snd, cls, sec, none⟩ := by
  rcases h with ⟨c, rfl, h1, h2, h3, rfl⟩ | ⟨c, d, cs, rfl, h1, h2, h3, h4, h5⟩ | ⟨d, rfl, h1, h2, h3, rfl, rfl⟩ |
    ⟨c, hc, rfl, h2, h3, rfl⟩
  · exact ⟨c, snd, cls, (ho 0 c rfl).2, ⟨cons_of h1, h2, h3⟩, .inl (by rw [hj]; rfl)⟩
  · obtain ⟨k1, snd2, cls2, k2, k3⟩ := true_second _ h4
    refine ⟨c, snd, cls, (ho 0 c rfl).2, ⟨cons_of h1, h2, h3⟩, .inr (.inl ⟨d, snd2, cls2, ho 1 d rfl, ⟨cons_of k1, k2, k3⟩,
      ?_, .inl ⟨cs, sec, h4, h5, by simp, by rw [hj]; rfl⟩⟩)⟩
    rintro ⟨rfl, h⟩
    exact hro rfl rfl (by rw [hj]; exact h)
  · refine ⟨_, .HA, .HIGH, (ho 0 _ rfl).2, ⟨by decide, by decide, by decide⟩, .inr (.inl ⟨d, snd, .LOWS, ho 1 d rfl,
      ⟨cons_of h1, h2, h3⟩, ?_, .inr (.inr (.inl ⟨rfl, rfl, by rw [hj]; rfl⟩))⟩)⟩
    rintro ⟨rfl, h⟩
    exact hro rfl rfl (by rw [hj]; exact h)
  · refine ⟨c, snd, cls, (ho 0 c rfl).2, ⟨?_, h2, h3⟩, .inr (.inl ⟨ch!"ร", .RA, .LOWS, ho 1 _ rfl,
      ⟨by decide, by decide, by decide⟩, ?_, .inr (.inl ⟨hc, rfl, rfl, by rw [hj]; rfl⟩)⟩)⟩
    · revert hc
      simp only [List.mem_cons, List.not_mem_nil, or_false]
      rintro (rfl | rfl | rfl | rfl) <;> decide
    · rintro ⟨-, h⟩
      exact hro rfl rfl (by rw [hj]; exact h)

theorem Spec.OnsetText.length (h : OnsetText on snd cls sec) : 0 < on.length := by
  rcases h with ⟨c, rfl, -⟩ | ⟨c, d, cs, rfl, -⟩ | ⟨d, rfl, -⟩ | ⟨c, hc, rfl, -⟩ <;> simp

theorem Spec.OnsetText.cons (h : OnsetText on snd cls sec) : ∀ x ∈ on, IsConsonant x := by
  rcases h with ⟨c, rfl, h, -⟩ | ⟨c, d, cs, rfl, h, -, -, h', -⟩ | ⟨d, rfl, h, -⟩ | ⟨c, hc, rfl, -⟩
  · simpa using h
  · simpa using ⟨h, (true_second _ h').1⟩
  · simpa using ⟨by decide, h⟩
  · have h : ∀ c ∈ u!"จซศส", ∀ x ∈ [c, ch!"ร"], IsConsonant x := by decide
    exact h c hc

set_option linter.unusedSimpArgs false in
theorem open_spelled {pat : Pattern}
    (hon : OnsetAt thaiCType w t pat.lead.length false ⟨j, none, snd, cls, sec, none⟩) (hpat : pat ∈ openPatterns)
    (hne : 0 < on.length) (P : Parts pat.lead on pat.sign mk pat.tail w t j k m) :
    Spelled thaiCType w t 0 false ⟨j, none, snd, cls, sec, none⟩ ⟨t, false, pat.vowel, pat.final, m⟩ := by
  simp only [openPatterns, List.mem_cons, List.not_mem_nil, or_false] at hpat
  rcases hpat with rfl | rfl | rfl | rfl | rfl | rfl | rfl | rfl | rfl | rfl | rfl | rfl | rfl | rfl | rfl | rfl | rfl | rfl | rfl | rfl | rfl | rfl | rfl | rfl | rfl | rfl | rfl | rfl | rfl | rfl | rfl
  · exact spelled_cons hon (by have := P.stop; have := P.pos; have := P.onset; have := hne; simp at * <;> omega) (.inr (.inr (.inr ⟨m, k, P.mark (by intro d h; cases h <;> decide), .inl ⟨P.z (i := 0) rfl, open_end (by have := P.stop; have := P.pos; have := P.onset; have := hne; simp at * <;> omega)⟩⟩)))
  · exact spelled_cons hon (by have := P.stop; have := P.pos; have := P.onset; have := hne; simp at * <;> omega) (.inr (.inr (.inr ⟨m, k, P.mark (by intro d h; cases h <;> decide), .inr (.inl ⟨P.z (i := 0) rfl, .inl (open_end (by have := P.stop; have := P.pos; have := P.onset; have := hne; simp at * <;> omega))⟩)⟩)))
  · exact spelled_cons hon (by have := P.stop; have := P.pos; have := P.onset; have := hne; simp at * <;> omega) (.inr (.inl ⟨_, VW.I, m, k, P.s (i := 0) rfl, by decide, by decide, P.mark (by intro d h; cases h <;> decide), .inr ⟨fun h => absurd h.1 (by decide), .inr (.inr ⟨not_silent_end (by have := P.stop; have := P.pos; have := P.onset; have := hne; simp at * <;> omega), not_silent2_end (by have := P.stop; have := P.pos; have := P.onset; have := hne; simp at * <;> omega), .inl (by have : t = k := (by have := P.stop; have := P.pos; have := P.onset; have := hne; simp at * <;> omega); rw [this])⟩)⟩⟩))
  · exact spelled_cons hon (by have := P.stop; have := P.pos; have := P.onset; have := hne; simp at * <;> omega) (.inr (.inl ⟨_, VW.II, m, k, P.s (i := 0) rfl, by decide, by decide, P.mark (by intro d h; cases h <;> decide), .inr ⟨fun h => absurd h.1 (by decide), .inr (.inr ⟨not_silent_end (by have := P.stop; have := P.pos; have := P.onset; have := hne; simp at * <;> omega), not_silent2_end (by have := P.stop; have := P.pos; have := P.onset; have := hne; simp at * <;> omega), .inl (by have : t = k := (by have := P.stop; have := P.pos; have := P.onset; have := hne; simp at * <;> omega); rw [this])⟩)⟩⟩))
  · exact spelled_cons hon (by have := P.stop; have := P.pos; have := P.onset; have := hne; simp at * <;> omega) (.inr (.inl ⟨_, VW.UE, m, k, P.s (i := 0) rfl, by decide, by decide, P.mark (by intro d h; cases h <;> decide), .inr ⟨fun h => absurd h.1 (by decide), .inr (.inr ⟨not_silent_end (by have := P.stop; have := P.pos; have := P.onset; have := hne; simp at * <;> omega), not_silent2_end (by have := P.stop; have := P.pos; have := P.onset; have := hne; simp at * <;> omega), .inl (by have : t = k := (by have := P.stop; have := P.pos; have := P.onset; have := hne; simp at * <;> omega); rw [this])⟩)⟩⟩))
  · exact spelled_cons hon (by have := P.stop; have := P.pos; have := P.onset; have := hne; simp at * <;> omega) (.inr (.inl ⟨_, VW.UEE, m, k, P.s (i := 0) rfl, by decide, by decide, P.mark (by intro d h; cases h <;> decide), .inl ⟨rfl, ⟨_, P.z (i := 0) rfl, by decide⟩, fun c h => by rw [← at_inj (P.z (i := 0) rfl) h]; decide, .inl ⟨rfl, P.z (i := 0) rfl, open_end (by have := P.stop; have := P.pos; have := P.onset; have := hne; simp at * <;> omega)⟩⟩⟩))
  · exact spelled_cons hon (by have := P.stop; have := P.pos; have := P.onset; have := hne; simp at * <;> omega) (.inr (.inl ⟨_, VW.U, m, k, P.s (i := 0) rfl, by decide, by decide, P.mark (by intro d h; cases h <;> decide), .inr ⟨fun h => absurd h.1 (by decide), .inr (.inr ⟨not_silent_end (by have := P.stop; have := P.pos; have := P.onset; have := hne; simp at * <;> omega), not_silent2_end (by have := P.stop; have := P.pos; have := P.onset; have := hne; simp at * <;> omega), .inl (by have : t = k := (by have := P.stop; have := P.pos; have := P.onset; have := hne; simp at * <;> omega); rw [this])⟩)⟩⟩))
  · exact spelled_cons hon (by have := P.stop; have := P.pos; have := P.onset; have := hne; simp at * <;> omega) (.inr (.inl ⟨_, VW.UU, m, k, P.s (i := 0) rfl, by decide, by decide, P.mark (by intro d h; cases h <;> decide), .inr ⟨fun h => absurd h.1 (by decide), .inr (.inr ⟨not_silent_end (by have := P.stop; have := P.pos; have := P.onset; have := hne; simp at * <;> omega), not_silent2_end (by have := P.stop; have := P.pos; have := P.onset; have := hne; simp at * <;> omega), .inl (by have : t = k := (by have := P.stop; have := P.pos; have := P.onset; have := hne; simp at * <;> omega); rw [this])⟩)⟩⟩))
  · exact spelled_e hon (P.l rfl) (by have := P.stop; have := P.pos; have := P.onset; have := hne; simp at * <;> omega) (.inr (.inr (.inr (.inr (.inr ⟨(by have := P.stop; have := P.pos; have := P.onset; have := hne; simp at * <;> omega), m, k, P.mark (by intro d h; cases h <;> decide), .inr (.inr (.inl ⟨P.z (i := 0) rfl, .inl rfl, open_end (by have := P.stop; have := P.pos; have := P.onset; have := hne; simp at * <;> omega)⟩))⟩)))))
  · rcases P.marked with ⟨rfl, rfl⟩ | ⟨x, hx, rfl⟩
    · exact spelled_e hon (P.l rfl) (by have := P.stop; have := P.pos; have := P.onset; have := hne; simp at * <;> omega) (.inl ⟨(by have := P.stop; have := P.pos; have := P.onset; have := hne; simp at * <;> omega), .inl rfl, (by have : t = j := (by have := P.stop; have := P.pos; have := P.onset; have := hne; simp at * <;> omega); rw [this])⟩)
    · exact spelled_e hon (P.l rfl) (by have := P.stop; have := P.pos; have := P.onset; have := hne; simp at * <;> omega) (.inr (.inr (.inr (.inr (.inr ⟨(by have := P.stop; have := P.pos; have := P.onset; have := hne; simp at * <;> omega), m, k, P.mark (by intro d h; cases h <;> decide), .inl ⟨(by have := P.stop; have := P.pos; have := P.onset; have := hne; simp at * <;> omega), (by have : t = k := (by have := P.stop; have := P.pos; have := P.onset; have := hne; simp at * <;> omega); rw [this])⟩⟩)))))
  · exact spelled_lead hon (by decide) (by decide) (P.l rfl) ⟨m, k, P.mark (by intro d h; cases h <;> decide), .inl ⟨rfl, .inl ⟨P.z (i := 0) rfl, open_end (by have := P.stop; have := P.pos; have := P.onset; have := hne; simp at * <;> omega)⟩⟩⟩
  · exact spelled_lead hon (by decide) (by decide) (P.l rfl) ⟨m, k, P.mark (by intro d h; cases h <;> decide), .inl ⟨rfl, .inr (.inr ⟨not_at_end (by have := P.stop; have := P.pos; have := P.onset; have := hne; simp at * <;> omega), not_at_end (by have := P.stop; have := P.pos; have := P.onset; have := hne; simp at * <;> omega), .inl (open_end (by have := P.stop; have := P.pos; have := P.onset; have := hne; simp at * <;> omega))⟩)⟩⟩
  · exact spelled_lead hon (by decide) (by decide) (P.l rfl) ⟨m, k, P.mark (by intro d h; cases h <;> decide), .inr (.inl ⟨rfl, .inl ⟨P.z (i := 0) rfl, .inr ⟨not_silent_end (by have := P.stop; have := P.pos; have := P.onset; have := hne; simp at * <;> omega), k + 1, skipIU_end (by have := P.stop; have := P.pos; have := P.onset; have := hne; simp at * <;> omega), (by have : t = k + 1 := (by have := P.stop; have := P.pos; have := P.onset; have := hne; simp at * <;> omega); rw [this])⟩⟩⟩)⟩
  · exact spelled_lead hon (by decide) (by decide) (P.l rfl) ⟨m, k, P.mark (by intro d h; cases h <;> decide), .inr (.inl ⟨rfl, .inr ⟨not_at_end (by have := P.stop; have := P.pos; have := P.onset; have := hne; simp at * <;> omega), .inr (.inr ⟨not_silent_end (by have := P.stop; have := P.pos; have := P.onset; have := hne; simp at * <;> omega), not_silent2_end (by have := P.stop; have := P.pos; have := P.onset; have := hne; simp at * <;> omega), .inl (by have : t = k := (by have := P.stop; have := P.pos; have := P.onset; have := hne; simp at * <;> omega); rw [this])⟩)⟩⟩)⟩
  · exact spelled_e hon (P.l rfl) (by have := P.stop; have := P.pos; have := P.onset; have := hne; simp at * <;> omega) (.inr (.inr (.inr (.inr (.inr ⟨(by have := P.stop; have := P.pos; have := P.onset; have := hne; simp at * <;> omega), m, k, P.mark (by intro d h; cases h <;> decide), .inr (.inr (.inr (.inl ⟨P.z (i := 0) rfl, .inl ⟨P.z (i := 1) rfl, open_end (by have := P.stop; have := P.pos; have := P.onset; have := hne; simp at * <;> omega)⟩⟩)))⟩)))))
  · exact spelled_cons hon (by have := P.stop; have := P.pos; have := P.onset; have := hne; simp at * <;> omega) (.inr (.inr (.inr ⟨m, k, P.mark (by intro d h; cases h <;> decide), .inr (.inr (.inr (.inr (.inl ⟨P.z (i := 0) rfl, .inl (open_end (by have := P.stop; have := P.pos; have := P.onset; have := hne; simp at * <;> omega))⟩))))⟩)))
  · exact spelled_e hon (P.l rfl) (by have := P.stop; have := P.pos; have := P.onset; have := hne; simp at * <;> omega) (.inr (.inr (.inr (.inr (.inr ⟨(by have := P.stop; have := P.pos; have := P.onset; have := hne; simp at * <;> omega), m, k, P.mark (by intro d h; cases h <;> decide), .inr (.inl ⟨P.z (i := 0) rfl, .inr (.inl ⟨P.z (i := 1) rfl, open_end (by have := P.stop; have := P.pos; have := P.onset; have := hne; simp at * <;> omega)⟩)⟩)⟩)))))
  · exact spelled_e hon (P.l rfl) (by have := P.stop; have := P.pos; have := P.onset; have := hne; simp at * <;> omega) (.inr (.inr (.inr (.inr (.inr ⟨(by have := P.stop; have := P.pos; have := P.onset; have := hne; simp at * <;> omega), m, k, P.mark (by intro d h; cases h <;> decide), .inr (.inl ⟨P.z (i := 0) rfl, .inr (.inr ⟨not_at_end (by have := P.stop; have := P.pos; have := P.onset; have := hne; simp at * <;> omega), open_end (by have := P.stop; have := P.pos; have := P.onset; have := hne; simp at * <;> omega)⟩)⟩)⟩)))))
  · exact spelled_cons hon (by have := P.stop; have := P.pos; have := P.onset; have := hne; simp at * <;> omega) (.inl ⟨P.s (i := 0) rfl, m, k, P.mark (by intro d h; cases h <;> decide), .inl ⟨P.z (i := 0) rfl, P.z (i := 1) rfl, open_end (by have := P.stop; have := P.pos; have := P.onset; have := hne; simp at * <;> omega)⟩⟩)
  · exact spelled_cons hon (by have := P.stop; have := P.pos; have := P.onset; have := hne; simp at * <;> omega) (.inl ⟨P.s (i := 0) rfl, m, k, P.mark (by intro d h; cases h <;> decide), .inr (.inl ⟨P.z (i := 0) rfl, not_at_end (by have := P.stop; have := P.pos; have := P.onset; have := hne; simp at * <;> omega), open_end (by have := P.stop; have := P.pos; have := P.onset; have := hne; simp at * <;> omega)⟩)⟩)
  · exact spelled_e hon (P.l rfl) (by have := P.stop; have := P.pos; have := P.onset; have := hne; simp at * <;> omega) (.inr (.inr (.inl ⟨P.s (i := 0) rfl, m, k, P.mark (by intro d h; cases h <;> decide), P.z (i := 0) rfl, .inl ⟨P.z (i := 1) rfl, open_end (by have := P.stop; have := P.pos; have := P.onset; have := hne; simp at * <;> omega)⟩⟩)))
  · exact spelled_e hon (P.l rfl) (by have := P.stop; have := P.pos; have := P.onset; have := hne; simp at * <;> omega) (.inr (.inr (.inl ⟨P.s (i := 0) rfl, m, k, P.mark (by intro d h; cases h <;> decide), P.z (i := 0) rfl, .inr ⟨not_at_end (by have := P.stop; have := P.pos; have := P.onset; have := hne; simp at * <;> omega), .inl (open_end (by have := P.stop; have := P.pos; have := P.onset; have := hne; simp at * <;> omega))⟩⟩)))
  · exact spelled_e hon (P.l rfl) (by have := P.stop; have := P.pos; have := P.onset; have := hne; simp at * <;> omega) (.inr (.inr (.inr (.inl ⟨P.s (i := 0) rfl, m, k, P.mark (by intro d h; cases h <;> decide), P.z (i := 0) rfl, .inl ⟨P.z (i := 1) rfl, open_end (by have := P.stop; have := P.pos; have := P.onset; have := hne; simp at * <;> omega)⟩⟩))))
  · exact spelled_e hon (P.l rfl) (by have := P.stop; have := P.pos; have := P.onset; have := hne; simp at * <;> omega) (.inr (.inr (.inr (.inl ⟨P.s (i := 0) rfl, m, k, P.mark (by intro d h; cases h <;> decide), P.z (i := 0) rfl, .inr ⟨not_at_end (by have := P.stop; have := P.pos; have := P.onset; have := hne; simp at * <;> omega), .inl (open_end (by have := P.stop; have := P.pos; have := P.onset; have := hne; simp at * <;> omega))⟩⟩))))
  · exact spelled_cons hon (by have := P.stop; have := P.pos; have := P.onset; have := hne; simp at * <;> omega) (.inr (.inr (.inr ⟨m, k, P.mark (by intro d h; cases h <;> decide), .inr (.inr (.inl ⟨P.z (i := 0) rfl, open_end (by have := P.stop; have := P.pos; have := P.onset; have := hne; simp at * <;> omega)⟩))⟩)))
  · exact spelled_lead hon (by decide) (by decide) (P.l rfl) ⟨m, k, P.mark (by intro d h; cases h <;> decide), .inr (.inr (.inr ⟨rfl, .inl (open_end (by have := P.stop; have := P.pos; have := P.onset; have := hne; simp at * <;> omega))⟩))⟩
  · exact spelled_lead hon (by decide) (by decide) (P.l rfl) ⟨m, k, P.mark (by intro d h; cases h <;> decide), .inr (.inr (.inl ⟨rfl, .inl (open_end (by have := P.stop; have := P.pos; have := P.onset; have := hne; simp at * <;> omega))⟩))⟩
  · exact spelled_lead hon (by decide) (by decide) (P.l rfl) ⟨m, k, P.mark (by intro d h; cases h <;> decide), .inr (.inr (.inl ⟨rfl, .inr ⟨rfl, P.z (i := 0) rfl, .inl (by have := P.stop; have := P.pos; have := P.onset; have := hne; simp at * <;> omega), (by have : t = k + 1 := (by have := P.stop; have := P.pos; have := P.onset; have := hne; simp at * <;> omega); rw [this])⟩⟩))⟩
  · exact spelled_e hon (P.l rfl) (by have := P.stop; have := P.pos; have := P.onset; have := hne; simp at * <;> omega) (.inr (.inr (.inr (.inr (.inr ⟨(by have := P.stop; have := P.pos; have := P.onset; have := hne; simp at * <;> omega), m, k, P.mark (by intro d h; cases h <;> decide), .inr (.inr (.inr (.inl ⟨P.z (i := 0) rfl, .inr ⟨not_at_end (by have := P.stop; have := P.pos; have := P.onset; have := hne; simp at * <;> omega), open_end (by have := P.stop; have := P.pos; have := P.onset; have := hne; simp at * <;> omega)⟩⟩)))⟩)))))
  · exact spelled_e hon (P.l rfl) (by have := P.stop; have := P.pos; have := P.onset; have := hne; simp at * <;> omega) (.inr (.inr (.inr (.inr (.inr ⟨(by have := P.stop; have := P.pos; have := P.onset; have := hne; simp at * <;> omega), m, k, P.mark (by intro d h; cases h <;> decide), .inr (.inr (.inr (.inr (.inl ⟨P.z (i := 0) rfl, .inl (by have := P.stop; have := P.pos; have := P.onset; have := hne; simp at * <;> omega), open_end (by have := P.stop; have := P.pos; have := P.onset; have := hne; simp at * <;> omega)⟩))))⟩)))))
  · exact spelled_cons hon (by have := P.stop; have := P.pos; have := P.onset; have := hne; simp at * <;> omega) (.inr (.inr (.inr ⟨m, k, P.mark (by intro d h; cases h <;> decide), .inr (.inr (.inr (.inr (.inr (.inl ⟨P.z (i := 0) rfl, .inr ⟨k + 1, (by split; exact rfl; exact skip_end (by have := P.stop; have := P.pos; have := P.onset; have := hne; simp at * <;> omega)), P.z (i := 1) rfl, .inl (open_end (by have := P.stop; have := P.pos; have := P.onset; have := hne; simp at * <;> omega))⟩⟩)))))⟩)))

set_option linter.unusedSimpArgs false in
theorem closed_spelled {pat : Pattern}
    (hon : OnsetAt thaiCType w t pat.lead.length false ⟨j, none, snd, cls, sec, none⟩) (hpat : pat ∈ closedPatterns) {x : Nat}
    {f : EndConsClass} (hx : thaiCType.isCons x = true) (hxf : x ∈ finalLetters f) (hf : f ≠ .NONE) (hex : x ∉ pat.excl)
    (hmk : pat.markable = false → mk = [] ∧ m = .SAMAN) (hwa : pat.vowel = VW.O → sec ≠ SC.WA)
    (hne : 0 < on.length) (P : Parts pat.lead on pat.sign mk (pat.tail ++ [x]) w t j k m) :
    Spelled thaiCType w t 0 false ⟨j, none, snd, cls, sec, none⟩ ⟨t, false, pat.vowel, f, m⟩ := by
  have hxr := thaiCType_ok.cons x hx
  have htx : thaiCType.isTone x = false := by
    cases h : thaiCType.isTone x with
    | false => rfl
    | true => have := thaiCType_ok.tone x h; omega
  have hxl : thaiCType.isLdVowel x = false := by
    cases h : thaiCType.isLdVowel x with
    | false => rfl
    | true => have := thaiCType_ok.ld x h; omega
  have hxo : x ≠ ch!"อ" := by
    rintro rfl
    revert hxf
    cases f <;> first | decide | exact fun _ => hf rfl
  simp only [closedPatterns, List.mem_cons, List.not_mem_nil, or_false] at hpat
  rcases hpat with rfl | rfl | rfl | rfl | rfl | rfl | rfl | rfl | rfl | rfl | rfl | rfl | rfl | rfl | rfl | rfl | rfl | rfl | rfl | rfl | rfl
  · by_cases h : m = .SAMAN
    · exact spelled_cons hon (by have := P.stop; have := P.pos; have := P.onset; have := hne; simp at * <;> omega) (.inl ⟨P.s (i := 0) rfl, m, k, P.mark (by intro d h; cases h; first | decide | exact htx), .inr (.inr (.inl ⟨P.not (i := 0) rfl (by simpa using hex), h, shutX_end (by have := P.stop; have := P.pos; have := P.onset; have := hne; simp at * <;> omega) ⟨P.z (i := 0) rfl, hx, hxf, hf, List.not_mem_nil⟩⟩))⟩)
    · exact spelled_cons hon (by have := P.stop; have := P.pos; have := P.onset; have := hne; simp at * <;> omega) (.inl ⟨P.s (i := 0) rfl, m, k, P.mark (by intro d h; cases h; first | decide | exact htx), .inr (.inr (.inr ⟨P.not (i := 0) rfl (by simpa using hex), h, shut_end (by have := P.stop; have := P.pos; have := P.onset; have := hne; simp at * <;> omega) ⟨P.z (i := 0) rfl, hx, hxf, hf, List.not_mem_nil⟩⟩))⟩)
  · exact spelled_cons hon (by have := P.stop; have := P.pos; have := P.onset; have := hne; simp at * <;> omega) (.inr (.inr (.inr ⟨m, k, P.mark (by intro d h; cases h; first | decide | exact htx), .inr (.inl ⟨P.z (i := 0) rfl, .inr ⟨k + 1, skip_end (by have := P.stop; have := P.pos; have := P.onset; have := hne; simp at * <;> omega), shutX_end (by have := P.stop; have := P.pos; have := P.onset; have := hne; simp at * <;> omega) ⟨P.z (i := 1) rfl, hx, hxf, hf, List.not_mem_nil⟩⟩⟩)⟩)))
  · by_cases h : m = .SAMAN
    · exact spelled_cons hon (by have := P.stop; have := P.pos; have := P.onset; have := hne; simp at * <;> omega) (.inr (.inl ⟨_, VW.I, m, k, P.s (i := 0) rfl, by decide, by decide, P.mark (by intro d h; cases h; first | decide | exact htx), .inr ⟨fun h => absurd h.1 (by decide), .inr (.inr ⟨not_silent_end (by have := P.stop; have := P.pos; have := P.onset; have := hne; simp at * <;> omega), not_silent2_end (by have := P.stop; have := P.pos; have := P.onset; have := hne; simp at * <;> omega), .inr ⟨fun c h => by rw [← at_inj (P.z (i := 0) rfl) h]; exact hxl, .inr (.inr (.inr ⟨by decide, by decide, h, shutX_end (by have := P.stop; have := P.pos; have := P.onset; have := hne; simp at * <;> omega) ⟨P.z (i := 0) rfl, hx, hxf, hf, (by simpa using hex)⟩⟩))⟩⟩)⟩⟩))
    · exact spelled_cons hon (by have := P.stop; have := P.pos; have := P.onset; have := hne; simp at * <;> omega) (.inr (.inl ⟨_, VW.I, m, k, P.s (i := 0) rfl, by decide, by decide, P.mark (by intro d h; cases h; first | decide | exact htx), .inr ⟨fun h => absurd h.1 (by decide), .inr (.inr ⟨not_silent_end (by have := P.stop; have := P.pos; have := P.onset; have := hne; simp at * <;> omega), not_silent2_end (by have := P.stop; have := P.pos; have := P.onset; have := hne; simp at * <;> omega), .inr ⟨fun c h => by rw [← at_inj (P.z (i := 0) rfl) h]; exact hxl, .inr (.inr (.inl ⟨by decide, .inr h, shut_end (by have := P.stop; have := P.pos; have := P.onset; have := hne; simp at * <;> omega) ⟨P.z (i := 0) rfl, hx, hxf, hf, (by simpa using hex)⟩⟩))⟩⟩)⟩⟩))
  · by_cases h : m = .SAMAN
    · exact spelled_cons hon (by have := P.stop; have := P.pos; have := P.onset; have := hne; simp at * <;> omega) (.inr (.inl ⟨_, VW.II, m, k, P.s (i := 0) rfl, by decide, by decide, P.mark (by intro d h; cases h; first | decide | exact htx), .inr ⟨fun h => absurd h.1 (by decide), .inr (.inr ⟨not_silent_end (by have := P.stop; have := P.pos; have := P.onset; have := hne; simp at * <;> omega), not_silent2_end (by have := P.stop; have := P.pos; have := P.onset; have := hne; simp at * <;> omega), .inr ⟨fun c h => by rw [← at_inj (P.z (i := 0) rfl) h]; exact hxl, .inr (.inr (.inr ⟨by decide, by decide, h, shutX_end (by have := P.stop; have := P.pos; have := P.onset; have := hne; simp at * <;> omega) ⟨P.z (i := 0) rfl, hx, hxf, hf, (by simpa using hex)⟩⟩))⟩⟩)⟩⟩))
    · exact spelled_cons hon (by have := P.stop; have := P.pos; have := P.onset; have := hne; simp at * <;> omega) (.inr (.inl ⟨_, VW.II, m, k, P.s (i := 0) rfl, by decide, by decide, P.mark (by intro d h; cases h; first | decide | exact htx), .inr ⟨fun h => absurd h.1 (by decide), .inr (.inr ⟨not_silent_end (by have := P.stop; have := P.pos; have := P.onset; have := hne; simp at * <;> omega), not_silent2_end (by have := P.stop; have := P.pos; have := P.onset; have := hne; simp at * <;> omega), .inr ⟨fun c h => by rw [← at_inj (P.z (i := 0) rfl) h]; exact hxl, .inr (.inr (.inl ⟨by decide, .inr h, shut_end (by have := P.stop; have := P.pos; have := P.onset; have := hne; simp at * <;> omega) ⟨P.z (i := 0) rfl, hx, hxf, hf, (by simpa using hex)⟩⟩))⟩⟩)⟩⟩))
  · exact spelled_cons hon (by have := P.stop; have := P.pos; have := P.onset; have := hne; simp at * <;> omega) (.inr (.inl ⟨_, VW.UE, m, k, P.s (i := 0) rfl, by decide, by decide, P.mark (by intro d h; cases h; first | decide | exact htx), .inr ⟨fun h => absurd h.1 (by decide), .inr (.inr ⟨not_silent_end (by have := P.stop; have := P.pos; have := P.onset; have := hne; simp at * <;> omega), not_silent2_end (by have := P.stop; have := P.pos; have := P.onset; have := hne; simp at * <;> omega), .inr ⟨fun c h => by rw [← at_inj (P.z (i := 0) rfl) h]; exact hxl, .inr (.inr (.inl ⟨by decide, .inl rfl, shut_end (by have := P.stop; have := P.pos; have := P.onset; have := hne; simp at * <;> omega) ⟨P.z (i := 0) rfl, hx, hxf, hf, List.not_mem_nil⟩⟩))⟩⟩)⟩⟩))
  · exact spelled_cons hon (by have := P.stop; have := P.pos; have := P.onset; have := hne; simp at * <;> omega) (.inr (.inl ⟨_, VW.UEE, m, k, P.s (i := 0) rfl, by decide, by decide, P.mark (by intro d h; cases h; first | decide | exact htx), .inl ⟨rfl, ⟨_, P.z (i := 0) rfl, hxl⟩, fun c h => by rw [← at_inj (P.z (i := 0) rfl) h]; exact hxl, .inr (.inl ⟨rfl, P.not (i := 0) rfl hxo, shut_end (by have := P.stop; have := P.pos; have := P.onset; have := hne; simp at * <;> omega) ⟨P.z (i := 0) rfl, hx, hxf, hf, List.not_mem_nil⟩⟩)⟩⟩))
  · by_cases h : m = .SAMAN
    · exact spelled_cons hon (by have := P.stop; have := P.pos; have := P.onset; have := hne; simp at * <;> omega) (.inr (.inl ⟨_, VW.U, m, k, P.s (i := 0) rfl, by decide, by decide, P.mark (by intro d h; cases h; first | decide | exact htx), .inr ⟨fun h => absurd h.1 (by decide), .inr (.inr ⟨not_silent_end (by have := P.stop; have := P.pos; have := P.onset; have := hne; simp at * <;> omega), not_silent2_end (by have := P.stop; have := P.pos; have := P.onset; have := hne; simp at * <;> omega), .inr ⟨fun c h => by rw [← at_inj (P.z (i := 0) rfl) h]; exact hxl, .inr (.inr (.inr ⟨by decide, by decide, h, shutX_end (by have := P.stop; have := P.pos; have := P.onset; have := hne; simp at * <;> omega) ⟨P.z (i := 0) rfl, hx, hxf, hf, List.not_mem_nil⟩⟩))⟩⟩)⟩⟩))
    · exact spelled_cons hon (by have := P.stop; have := P.pos; have := P.onset; have := hne; simp at * <;> omega) (.inr (.inl ⟨_, VW.U, m, k, P.s (i := 0) rfl, by decide, by decide, P.mark (by intro d h; cases h; first | decide | exact htx), .inr ⟨fun h => absurd h.1 (by decide), .inr (.inr ⟨not_silent_end (by have := P.stop; have := P.pos; have := P.onset; have := hne; simp at * <;> omega), not_silent2_end (by have := P.stop; have := P.pos; have := P.onset; have := hne; simp at * <;> omega), .inr ⟨fun c h => by rw [← at_inj (P.z (i := 0) rfl) h]; exact hxl, .inr (.inr (.inl ⟨by decide, .inr h, shut_end (by have := P.stop; have := P.pos; have := P.onset; have := hne; simp at * <;> omega) ⟨P.z (i := 0) rfl, hx, hxf, hf, List.not_mem_nil⟩⟩))⟩⟩)⟩⟩))
  · by_cases h : m = .SAMAN
    · exact spelled_cons hon (by have := P.stop; have := P.pos; have := P.onset; have := hne; simp at * <;> omega) (.inr (.inl ⟨_, VW.UU, m, k, P.s (i := 0) rfl, by decide, by decide, P.mark (by intro d h; cases h; first | decide | exact htx), .inr ⟨fun h => absurd h.1 (by decide), .inr (.inr ⟨not_silent_end (by have := P.stop; have := P.pos; have := P.onset; have := hne; simp at * <;> omega), not_silent2_end (by have := P.stop; have := P.pos; have := P.onset; have := hne; simp at * <;> omega), .inr ⟨fun c h => by rw [← at_inj (P.z (i := 0) rfl) h]; exact hxl, .inr (.inr (.inr ⟨by decide, by decide, h, shutX_end (by have := P.stop; have := P.pos; have := P.onset; have := hne; simp at * <;> omega) ⟨P.z (i := 0) rfl, hx, hxf, hf, List.not_mem_nil⟩⟩))⟩⟩)⟩⟩))
    · exact spelled_cons hon (by have := P.stop; have := P.pos; have := P.onset; have := hne; simp at * <;> omega) (.inr (.inl ⟨_, VW.UU, m, k, P.s (i := 0) rfl, by decide, by decide, P.mark (by intro d h; cases h; first | decide | exact htx), .inr ⟨fun h => absurd h.1 (by decide), .inr (.inr ⟨not_silent_end (by have := P.stop; have := P.pos; have := P.onset; have := hne; simp at * <;> omega), not_silent2_end (by have := P.stop; have := P.pos; have := P.onset; have := hne; simp at * <;> omega), .inr ⟨fun c h => by rw [← at_inj (P.z (i := 0) rfl) h]; exact hxl, .inr (.inr (.inl ⟨by decide, .inr h, shut_end (by have := P.stop; have := P.pos; have := P.onset; have := hne; simp at * <;> omega) ⟨P.z (i := 0) rfl, hx, hxf, hf, List.not_mem_nil⟩⟩))⟩⟩)⟩⟩))
  · obtain ⟨rfl, rfl⟩ := hmk rfl
    have hk : k = j + 1 := (by have := P.stop; have := P.pos; have := P.onset; have := hne; simp at * <;> omega)
    subst hk
    exact spelled_e hon (P.l rfl) (by have := P.stop; have := P.pos; have := P.onset; have := hne; simp at * <;> omega) (.inr (.inr (.inr (.inr (.inl ⟨P.s (i := 0) rfl, shut_end (by have := P.stop; have := P.pos; have := P.onset; have := hne; simp at * <;> omega) ⟨P.z (i := 0) rfl, hx, hxf, hf, List.not_mem_nil⟩⟩)))))
  · exact spelled_e hon (P.l rfl) (by have := P.stop; have := P.pos; have := P.onset; have := hne; simp at * <;> omega) (.inr (.inr (.inr (.inr (.inr ⟨(by have := P.stop; have := P.pos; have := P.onset; have := hne; simp at * <;> omega), m, k, P.mark (by intro d h; cases h; first | decide | exact htx), .inr (.inr (.inr (.inr (.inr (⟨x, P.z (i := 0) rfl, by simp only [List.mem_cons, List.not_mem_nil, or_false]; omega, fun h => hex (by simp [h.1]), fun h => by have := h.2; simp only [List.mem_cons, List.not_mem_nil, or_false] at this; omega, .inl rfl, .inr ⟨k, skip_end (by have := P.stop; have := P.pos; have := P.onset; have := hne; simp at * <;> omega), shutX_end (by have := P.stop; have := P.pos; have := P.onset; have := hne; simp at * <;> omega) ⟨P.z (i := 0) rfl, hx, hxf, hf, List.not_mem_nil⟩⟩⟩)))))⟩)))))
  · obtain ⟨rfl, rfl⟩ := hmk rfl
    have hk : k = j + 1 := (by have := P.stop; have := P.pos; have := P.onset; have := hne; simp at * <;> omega)
    subst hk
    exact spelled_lead hon (by decide) (by decide) (P.l rfl) ⟨.SAMAN, j, .inr ⟨fun c h => by rw [← at_inj (P.s (i := 0) rfl) h]; decide, rfl, rfl⟩, .inl ⟨rfl, .inr (.inl ⟨P.s (i := 0) rfl, shut_end (by have := P.stop; have := P.pos; have := P.onset; have := hne; simp at * <;> omega) ⟨P.z (i := 0) rfl, hx, hxf, hf, List.not_mem_nil⟩⟩)⟩⟩
  · exact spelled_lead hon (by decide) (by decide) (P.l rfl) ⟨m, k, P.mark (by intro d h; cases h; first | decide | exact htx), .inl ⟨rfl, .inr (.inr ⟨P.not (i := 0) rfl (by omega), P.not (i := 0) rfl (by omega), .inr ⟨k, skip_end (by have := P.stop; have := P.pos; have := P.onset; have := hne; simp at * <;> omega), shut_end (by have := P.stop; have := P.pos; have := P.onset; have := hne; simp at * <;> omega) ⟨P.z (i := 0) rfl, hx, hxf, hf, List.not_mem_nil⟩⟩⟩)⟩⟩
  · exact spelled_cons hon (by have := P.stop; have := P.pos; have := P.onset; have := hne; simp at * <;> omega) (.inr (.inr (.inr ⟨m, k, P.mark (by intro d h; cases h; first | decide | exact htx), .inr (.inr (.inr (.inr (.inr (.inr (.inl ⟨rfl, hwa rfl, rfl, shut_end (by have := P.stop; have := P.pos; have := P.onset; have := hne; simp at * <;> omega) ⟨P.z (i := 0) rfl, hx, hxf, hf, (by simp at hex ⊢; omega)⟩⟩))))))⟩)))
  · exact spelled_lead hon (by decide) (by decide) (P.l rfl) ⟨m, k, P.mark (by intro d h; cases h; first | decide | exact htx), .inr (.inl ⟨rfl, .inr ⟨P.not (i := 0) rfl (by omega), .inr (.inr ⟨not_silent_end (by have := P.stop; have := P.pos; have := P.onset; have := hne; simp at * <;> omega), not_silent2_end (by have := P.stop; have := P.pos; have := P.onset; have := hne; simp at * <;> omega), .inr (shutX_end (by have := P.stop; have := P.pos; have := P.onset; have := hne; simp at * <;> omega) ⟨P.z (i := 0) rfl, hx, hxf, hf, List.not_mem_nil⟩)⟩)⟩⟩)⟩
  · obtain ⟨rfl, rfl⟩ := hmk rfl
    have hk : k = j + 1 := (by have := P.stop; have := P.pos; have := P.onset; have := hne; simp at * <;> omega)
    subst hk
    exact spelled_cons hon (by have := P.stop; have := P.pos; have := P.onset; have := hne; simp at * <;> omega) (.inr (.inr (.inl ⟨P.s (i := 0) rfl, P.z (i := 0) rfl, j + 2, skip_end (by have := P.stop; have := P.pos; have := P.onset; have := hne; simp at * <;> omega), shut_end (by have := P.stop; have := P.pos; have := P.onset; have := hne; simp at * <;> omega) ⟨P.z (i := 1) rfl, hx, hxf, hf, List.not_mem_nil⟩⟩)))
  · exact spelled_cons hon (by have := P.stop; have := P.pos; have := P.onset; have := hne; simp at * <;> omega) (.inr (.inr (.inr ⟨m, k, P.mark (by intro d h; cases h; first | decide | exact htx), .inr (.inr (.inr (.inr (.inl ⟨P.z (i := 0) rfl, .inr ⟨k + 1, skip_end (by have := P.stop; have := P.pos; have := P.onset; have := hne; simp at * <;> omega), shut_end (by have := P.stop; have := P.pos; have := P.onset; have := hne; simp at * <;> omega) ⟨P.z (i := 1) rfl, hx, hxf, hf, List.not_mem_nil⟩⟩⟩))))⟩)))
  · exact spelled_e hon (P.l rfl) (by have := P.stop; have := P.pos; have := P.onset; have := hne; simp at * <;> omega) (.inr (.inl ⟨P.s (i := 0) rfl, m, k, k, P.mark (by intro d h; cases h; first | decide | exact htx), skip_end (by have := P.stop; have := P.pos; have := P.onset; have := hne; simp at * <;> omega), shut_end (by have := P.stop; have := P.pos; have := P.onset; have := hne; simp at * <;> omega) ⟨P.z (i := 0) rfl, hx, hxf, hf, List.not_mem_nil⟩⟩))
  · exact spelled_cons hon (by have := P.stop; have := P.pos; have := P.onset; have := hne; simp at * <;> omega) (.inr (.inr (.inr ⟨m, k, P.mark (by intro d h; cases h; first | decide | exact htx), .inr (.inr (.inr (.inl ⟨P.z (i := 0) rfl, shut_end (by have := P.stop; have := P.pos; have := P.onset; have := hne; simp at * <;> omega) ⟨P.z (i := 1) rfl, hx, hxf, hf, List.not_mem_nil⟩⟩)))⟩)))
  · exact spelled_e hon (P.l rfl) (by have := P.stop; have := P.pos; have := P.onset; have := hne; simp at * <;> omega) (.inr (.inr (.inl ⟨P.s (i := 0) rfl, m, k, P.mark (by intro d h; cases h; first | decide | exact htx), P.z (i := 0) rfl, .inr ⟨P.not (i := 1) rfl (by omega), .inr ⟨k + 1, skip_end (by have := P.stop; have := P.pos; have := P.onset; have := hne; simp at * <;> omega), (by rw [if_pos rfl]; exact shutX_end (by have := P.stop; have := P.pos; have := P.onset; have := hne; simp at * <;> omega) ⟨P.z (i := 1) rfl, hx, hxf, hf, List.not_mem_nil⟩)⟩⟩⟩)))
  · exact spelled_e hon (P.l rfl) (by have := P.stop; have := P.pos; have := P.onset; have := hne; simp at * <;> omega) (.inr (.inr (.inr (.inl ⟨P.s (i := 0) rfl, m, k, P.mark (by intro d h; cases h; first | decide | exact htx), P.z (i := 0) rfl, .inr ⟨P.not (i := 1) rfl (by omega), .inr ⟨k + 1, skip_end (by have := P.stop; have := P.pos; have := P.onset; have := hne; simp at * <;> omega), (by rw [if_neg (by decide)]; exact shut_end (by have := P.stop; have := P.pos; have := P.onset; have := hne; simp at * <;> omega) ⟨P.z (i := 1) rfl, hx, hxf, hf, List.not_mem_nil⟩)⟩⟩⟩))))
  · exact spelled_cons hon (by have := P.stop; have := P.pos; have := P.onset; have := hne; simp at * <;> omega) (.inr (.inr (.inr ⟨m, k, P.mark (by intro d h; cases h; first | decide | exact htx), .inr (.inr (.inr (.inr (.inr (.inl ⟨P.z (i := 0) rfl, .inr ⟨k + 1, (by split; exact rfl; exact .inr ⟨fun ⟨_, _, _, h⟩ => P.not (i := 2) (d' := ch!"์") rfl (by omega) h, rfl⟩), P.z (i := 1) rfl, .inr ⟨not_silent_end (by have := P.stop; have := P.pos; have := P.onset; have := hne; simp at * <;> omega), shutX_end (by have := P.stop; have := P.pos; have := P.onset; have := hne; simp at * <;> omega) ⟨P.z (i := 2) rfl, hx, hxf, hf, List.not_mem_nil⟩⟩⟩⟩)))))⟩)))

end Thpronun
