import Verif.Spec.Mute
import Verif.Lemmas.Retone

/-! # Lemmas on texts that differ in their silenced letters only -/

namespace Thpronun
open Res Spec DAG

variable {ct : CType} {w w' : U16Str} {t : Nat}

theorem mutable_final {c : Nat} (h : Mutable ct c) : c ∉ u!"หอฮรฤฦะาๅำัิีึืุู็์.เแโใไ่้๊๋ " := by
  obtain ⟨-, h1, f, h2, h3⟩ := h
  have key : ∀ x ∈ u!"หอฮฤฦะาๅำัิีึืุู็์.เแโใไ่้๊๋ ", x ∉ finalLetters f := by
    cases f <;> first | exact absurd rfl h2 | decide
  intro h
  rw [show u!"หอฮรฤฦะาๅำัิีึืุู็์.เแโใไ่้๊๋ " = u!"หอฮ" ++ ch!"ร" :: u!"ฤฦะาๅำัิีึืุู็์.เแโใไ่้๊๋ " from rfl] at h
  have : c ∈ u!"หอฮฤฦะาๅำัิีึืุู็์.เแโใไ่้๊๋ " := by
    rcases List.mem_append.mp h with h | h
    · exact (by decide : u!"หอฮ" ⊆ u!"หอฮฤฦะาๅำัิีึืุู็์.เแโใไ่้๊๋ ") h
    · rcases List.mem_cons.mp h with h | h
      · exact absurd h h1
      · exact (by decide : u!"ฤฦะาๅำัิีึืุู็์.เแโใไ่้๊๋ " ⊆ u!"หอฮฤฦะาๅำัิีึืุู็์.เแโใไ่้๊๋ ") h
  exact key c this h3

/-- Thanthakhat, or a letter under it, stands at `k`: nothing is read from here on. -/
def Stuck (ct : CType) (w : U16Str) (k : Nat) : Prop :=
  w[k]? = some ch!"์" ∨ ∃ c, w[k]? = some c ∧ ct.isCons c = true ∧ w[k + 1]? = some ch!"์"

theorem kill_range {c : Nat} (hct : ct.Ok) (h : c = ch!"์") :
    ct.isCons c = false ∧ ct.isLdVowel c = false ∧ ct.isTone c = false := by
  subst h
  refine ⟨?_, ?_, noTone hct (by decide)⟩
  · cases h : ct.isCons ch!"์" with
    | false => rfl
    | true => exact absurd (hct.cons _ h) (by decide)
  · cases h : ct.isLdVowel ch!"์" with
    | false => rfl
    | true => exact absurd (hct.ld _ h) (by decide)

theorem at_eq {i c d : Nat} (h : At w t i c) (h' : At w t i d) : c = d := Option.some.inj (h.2.symm.trans h'.2)

/-! ## Nothing goes on at thanthakhat -/

section
variable (hct : ct.Ok) {j k : Nat} {r : Rime}
include hct

theorem stuck_cons (h : At w t k ch!"์") {c : Nat} (hc : At w t k c) (h' : ct.isCons c = true) : False := by
  rw [(kill_range hct (at_eq hc h)).1] at h'; cases h'

theorem stuck_start (h : At w t k ch!"์") (h' : StartAt ct w t k) : False := by
  obtain ⟨c, h1, h2 | h2⟩ := h'
  · exact stuck_cons hct h h1 h2
  · rw [(kill_range hct (at_eq h1 h)).2.1] at h2; cases h2

theorem stuck_endOrStart (h : At w t k ch!"์") (h' : EndOrStart ct w t k) : False :=
  h'.elim (fun h' => absurd h.1 (by omega)) (stuck_start hct h)

theorem stuck_silent (h : At w t k ch!"์") : ¬ Silent ct w t k := fun ⟨_, h1, h2, _⟩ => stuck_cons hct h h1 h2

theorem stuck_skip (h : At w t j ch!"์") (h' : Skip ct w t j k) : k = j :=
  h'.elim (fun h' => absurd h'.1 (stuck_silent hct h)) And.right

theorem stuck_skipAny (h : At w t j ch!"์") (h' : SkipAny ct w t j k) : k = j := by
  rcases h' with h' | ⟨-, ⟨c, d, h1, h2, -⟩, -⟩ | h'
  · exact absurd h'.1 (stuck_silent hct h)
  · exact (stuck_cons hct h h1 h2).elim
  · exact h'.2.2

theorem stuck_open (h : At w t j ch!"์") {v f m} (h' : Open ct w t j v f m r) : Stuck ct w r.stop := by
  obtain ⟨k, h1, rfl⟩ := h'
  rw [stuck_skip hct h h1]
  exact .inl h.2

theorem stuck_shut0 (h : At w t j ch!"์") {e v m} (h' : Shut ct w t j e v m r) : False := by
  obtain ⟨k, b, f, ⟨c, h1, -⟩, -⟩ := h'
  exact stuck_cons hct h h1.1 h1.2.1

theorem stuck_shutX0 (h : At w t j ch!"์") {e v m} (h' : ShutX ct w t j e v m r) : False := by
  obtain ⟨k, b, f, ⟨c, h1, -⟩, -⟩ := h'
  exact stuck_cons hct h h1.1 h1.2.1

theorem stuck_closed (h : At w t (j + 1) ch!"์") {e b f} (h' : Closed ct w t j e k b f) : Stuck ct w k := by
  obtain ⟨c, -, -, h1⟩ := h'
  rw [stuck_skipAny hct h h1]
  exact .inl h.2

omit hct in
theorem kill_link : ch!"์" ∉ linkVowels := by decide

omit hct in
theorem kill_iu {d : Nat} (h : IU d) : d ≠ ch!"์" := by
  rcases h with rfl | rfl <;> decide

theorem stuck_closedX (h : At w t (j + 1) ch!"์") {e b f} (h' : ClosedX ct w t j e k b f) : Stuck ct w k := by
  obtain ⟨c, -, ⟨-, h1⟩ | ⟨-, ⟨-, -, -, h1 | ⟨d, h1, h2, -⟩⟩ | ⟨-, -, ⟨d, n, h1, h2, -⟩ | ⟨d, h1, -, h2, -⟩⟩⟩⟩ := h'
  · rw [stuck_skipAny hct h h1]
    exact .inl h.2
  · exact (stuck_cons hct h h1.1 h1.2.1).elim
  · exact absurd (at_eq h1 h) (kill_iu h2)
  · exact (stuck_cons hct h h1 h2).elim
  · rw [at_eq h1 h] at h2; exact absurd h2 kill_link

theorem stuck_shut (h : At w t (j + 1) ch!"์") {e v m} (h' : Shut ct w t j e v m r) : Stuck ct w r.stop := by
  obtain ⟨k, b, f, h1, rfl⟩ := h'
  exact stuck_closed hct h h1

theorem stuck_shutX (h : At w t (j + 1) ch!"์") {e v m} (h' : ShutX ct w t j e v m r) : Stuck ct w r.stop := by
  obtain ⟨k, b, f, h1, rfl⟩ := h'
  exact stuck_closedX hct h h1

theorem stuck_mark (h : At w t j ch!"์") {m} (h' : MarkAt ct w t j m k) : k = j := by
  rcases h' with ⟨c, h1, h2, -⟩ | h'
  · rw [(kill_range hct (at_eq h1 h)).2.2] at h2; cases h2
  · exact h'.2.2

/-- No rime begins at thanthakhat. -/
theorem stuck_consRime {o l} (h : At w t o.stop ch!"์") (h' : ConsRime ct w t o l r) : False := by
  rcases h' with h' | ⟨c, v, m, k, h1, -, h2, -⟩ | h' | ⟨m, k, hm, h'⟩
  · exact absurd (at_eq h'.1 h) (by decide)
  · rw [at_eq h1 h] at h2
    exact (by decide : ∀ x ∈ signVowels, x.1 ≠ ch!"์") _ h2 rfl
  · exact absurd (at_eq h'.1 h) (by decide)
  · rw [stuck_mark hct h hm] at h'
    rcases h' with ⟨a, -⟩ | ⟨a, -⟩ | ⟨a, -⟩ | ⟨a, -⟩ | ⟨a, -⟩ | ⟨a, -⟩ | ⟨-, -, -, a⟩ | ⟨v, c, -, a, b, -⟩
    iterate 6 exact absurd (at_eq a h) (by decide)
    · exact stuck_shut0 hct h a
    · exact stuck_cons hct h a b

theorem stuck_skipShut (h : At w t j ch!"์") {e v m} (h' : ∃ k', Skip ct w t j k' ∧ Shut ct w t k' e v m r) : False := by
  obtain ⟨k, h1, h2⟩ := h'
  rw [stuck_skip hct h h1] at h2
  exact stuck_shut0 hct h h2

theorem stuck_skipShutX (h : At w t j ch!"์") {e v m} (h' : ∃ k', Skip ct w t j k' ∧ ShutX ct w t k' e v m r) : False := by
  obtain ⟨k, h1, h2⟩ := h'
  rw [stuck_skip hct h h1] at h2
  exact stuck_shutX0 hct h h2

theorem stuck_eRime {o} (h : At w t o.stop ch!"์") (h' : ERime ct w t o r) : Stuck ct w r.stop := by
  rcases h' with ⟨a, -⟩ | ⟨a, -⟩ | ⟨a, -⟩ | ⟨a, -⟩ | ⟨a, -⟩ | ⟨-, m, k, hm, h'⟩
  · exact absurd h.1 (by omega)
  iterate 4 exact absurd (at_eq a h) (by decide)
  · rw [stuck_mark hct h hm] at h'
    rcases h' with ⟨a, -⟩ | ⟨a, -⟩ | ⟨a, -⟩ | ⟨a, -⟩ | ⟨a, -⟩ | ⟨c, a, -, -, -, -, h' | h'⟩
    · exact absurd h.1 (by omega)
    iterate 4 exact absurd (at_eq a h) (by decide)
    · exact stuck_open hct h h'
    · exact (stuck_skipShutX hct h h').elim

theorem stuck_leadRime {v} (h : At w t j ch!"์") (h' : LeadRime ct w t v j r) : Stuck ct w r.stop := by
  obtain ⟨m, k, hm, h'⟩ := h'
  rw [stuck_mark hct h hm] at h'
  rcases h' with ⟨-, ⟨a, -⟩ | ⟨a, -⟩ | ⟨-, -, h' | h'⟩⟩ | ⟨-, ⟨a, -⟩ | ⟨-, ⟨a, -⟩ | ⟨-, ⟨c, d, a, b, -⟩, -⟩ | ⟨-, -, rfl | h'⟩⟩⟩ |
    ⟨-, h' | ⟨-, a, -⟩⟩ | ⟨-, h' | ⟨-, a, -⟩⟩
  · exact absurd (at_eq a h) (by decide)
  · exact absurd (at_eq a h) (by decide)
  · exact stuck_open hct h h'
  · exact (stuck_skipShut hct h h').elim
  · exact absurd (at_eq a h) (by decide)
  · exact absurd a (stuck_silent hct h)
  · exact (stuck_cons hct h a b).elim
  · exact .inl h.2
  · exact (stuck_shutX0 hct h h').elim
  · exact stuck_open hct h h'
  · exact absurd (at_eq a h) (by decide)
  · exact stuck_open hct h h'
  · exact absurd (at_eq a h) (by decide)

/-- An onset whose first letter is under thanthakhat is this letter alone. -/
theorem stuck_onset {i l o} (h : At w t (i + 1) ch!"์") (h' : OnsetAt ct w t i l o) : o.stop = i + 1 := by
  obtain ⟨c, snd, cls, -, -, rfl | ⟨d, s2, c2, h1, h2, -⟩ | ⟨h1, -⟩⟩ := h'
  · rfl
  · exact (stuck_cons hct h h1 h2.1).elim
  · exact absurd (at_eq h1.1 h) (by decide)

/-- Nothing is spelled from a silenced letter on. -/
theorem stuck_spelled {i l o} (ht : w[t]? ≠ some ch!"์") (hi : i < t) (h : Stuck ct w i) (h' : Spelled ct w t i l o r) : False := by
  obtain ⟨c, hc, h'⟩ := h'
  rcases h with h | ⟨d, h1, h2, h3⟩
  · have he : c = ch!"์" := Option.some.inj (hc.symm.trans h)
    obtain ⟨k1, k2, -⟩ := kill_range hct he
    rcases h' with ⟨a, -⟩ | ⟨a, -⟩ | ⟨a, -⟩ | ⟨a, -⟩
    · rw [k1] at a; cases a
    · rw [he] at a; exact absurd a (by decide)
    · rw [k2] at a; cases a
    · rw [he] at a; exact absurd a (by decide)
  · obtain rfl : d = c := Option.some.inj (h1.symm.trans hc)
    have hr := hct.cons d h2
    have hk : At w t (i + 1) ch!"์" := ⟨by
      by_contra hn
      obtain rfl : t = i + 1 := by omega
      exact ht h3, h3⟩
    rcases h' with ⟨-, ⟨b, d, h'⟩ | ⟨⟨c, snd, cls, -, -, h'⟩, -⟩⟩ | ⟨rfl, -⟩ | ⟨a, -⟩ | ⟨rfl | rfl, -⟩
    · exact stuck_consRime hct (by rw [stuck_onset hct hk b]; exact hk) h'
    · rcases h' with ⟨a, -⟩ | ⟨-, a, -⟩ | ⟨a, -⟩ | ⟨a, -⟩
      · exact stuck_start hct hk a
      · exact absurd (at_eq a hk) (by decide)
      · exact absurd (at_eq a hk) (by decide)
      · exact absurd (at_eq a.1 hk) (by decide)
    · exact absurd hr (by decide)
    · have := hct.ld _ a; omega
    · exact absurd hr (by decide)
    · exact absurd hr (by decide)

end

/-- Nothing follows a leading vowel and its consonant at the end of the token. -/
theorem lead_past {j v : Nat} {r : Rime} (hj : t ≤ j) (h : LeadRime ct w t v j r) : r.stop = j := by
  have no : ∀ {i c}, t ≤ i → ¬ At w t i c := fun hi h => absurd h.1 (by omega)
  have ns : ∀ {i}, t ≤ i → ¬ Silent ct w t i := fun hi ⟨_, h, _⟩ => no hi h
  have sk : ∀ {i k}, t ≤ i → Skip ct w t i k → k = i := fun hi h => h.elim (fun h => absurd h.1 (ns hi)) And.right
  have nx : ∀ {i e v m}, t ≤ i → ¬ ShutX ct w t i e v m r := fun hi ⟨_, _, _, ⟨_, h, _⟩, _⟩ => no hi h.1
  have nh : ∀ {i e v m}, t ≤ i → ¬ Shut ct w t i e v m r := fun hi ⟨_, _, _, ⟨_, h, _⟩, _⟩ => no hi h.1
  have op : ∀ {i v f m}, t ≤ i → Open ct w t i v f m r → r.stop = i := fun hi ⟨k, h, e⟩ => by rw [e]; exact sk hi h
  obtain ⟨m, k, ⟨c, h1, -⟩ | ⟨-, -, rfl⟩, h⟩ := h
  · exact absurd h1 (no hj)
  rcases h with ⟨-, ⟨a, -⟩ | ⟨a, -⟩ | ⟨-, -, h | ⟨k', h1, h⟩⟩⟩ | ⟨-, ⟨a, -⟩ | ⟨-, ⟨a, -⟩ | ⟨-, ⟨c, d, a, b, -⟩, -⟩ | ⟨-, -, h | h⟩⟩⟩ |
    ⟨-, h | ⟨-, a, -⟩⟩ | ⟨-, h | ⟨-, a, -⟩⟩
  · exact absurd a (no hj)
  · exact absurd a (no hj)
  · exact op hj h
  · rw [sk hj h1] at h; exact absurd h (nh hj)
  · exact absurd a (no hj)
  · exact absurd a (ns hj)
  · exact absurd a (no hj)
  · rw [h]
  · exact absurd h (nx hj)
  · exact op hj h
  · exact absurd a (no hj)
  · exact op hj h
  · exact absurd a (no hj)

/-! ## The exchange -/

abbrev Muted (ct : CType) (w w' : U16Str) : Prop := SilentExchange (Mutable ct) w w'

namespace Muted

theorem symm (X : Muted ct w w') : Muted ct w' w :=
  ⟨X.1.symm, fun i => (X.2 i).imp Eq.symm fun ⟨c, c', h1, h2, h3, h4, h5, h6⟩ => ⟨c', c, h2, h1, h4, h3, h6, h5⟩⟩

variable (X : Muted ct w w')
include X

theorem keep {i c : Nat} (hc : ¬ Mutable ct c) (h : w[i]? = some c) : w'[i]? = some c := by
  rcases X.2 i with k | ⟨c1, c', h1, h2, h3, -⟩
  · rw [← k]; exact h
  · rw [h1] at h; cases h; exact absurd h3 hc

theorem lit {i c : Nat} (hc : ¬ Mutable ct c) (h : At w t i c) : At w' t i c := ⟨h.1, X.keep hc h.2⟩

theorem lit_iff {i c : Nat} (hc : ¬ Mutable ct c) : At w t i c ↔ At w' t i c := ⟨X.lit hc, Muted.lit (symm X) hc⟩

theorem fix {i : Nat} (h : w[i + 1]? ≠ some ch!"์") : w[i]? = w'[i]? :=
  (X.2 i).elim id fun ⟨_, _, _, _, _, _, h5, _⟩ => absurd h5 h

theorem fix_iff (ht : w[t]? ≠ some ch!"์") {i c : Nat} (h : ¬ At w t (i + 1) ch!"์") : At w t i c ↔ At w' t i c := by
  unfold At
  by_cases hi : i < t
  · rw [X.fix fun hk => ?_]
    refine h ⟨?_, hk⟩
    by_contra hn
    obtain rfl : t = i + 1 := by omega
    exact ht hk
  · exact ⟨fun h => absurd h.1 hi, fun h => absurd h.1 hi⟩

theorem cons {i c : Nat} (h : w[i]? = some c) (hc : ct.isCons c = true) : ∃ c' : Nat, w'[i]? = some c' ∧ ct.isCons c' = true := by
  rcases X.2 i with k | ⟨c1, c', h1, h2, h3, h4, -⟩
  · exact ⟨c, k ▸ h, hc⟩
  · exact ⟨c', h2, h4.1⟩

end Muted

theorem lit_fixed {c : Nat} (h : c ∈ u!"หอฮรฤฦะาๅำัิีึืุู็์.เแโใไ่้๊๋ ") : ¬ Mutable ct c := fun h' => mutable_final h' h

theorem nocons_fixed {c : Nat} (h : ct.isCons c = false) : ¬ Mutable ct c := fun h' => by rw [h'.1] at h; cases h

theorem ld_nocons (hct : ct.Ok) {c : Nat} (h : ct.isLdVowel c = true) : ct.isCons c = false := by
  cases hc : ct.isCons c with
  | false => rfl
  | true => have := hct.cons c hc; have := hct.ld c h; omega

theorem iu_fixed {c : Nat} (h : IU c) : ¬ Mutable ct c := by
  rcases h with rfl | rfl <;> exact lit_fixed (by decide)

namespace Muted
variable (hct : ct.Ok)
include hct

theorem startAt (X : Muted ct w w') {i : Nat} (h : StartAt ct w t i) : StartAt ct w' t i := by
  obtain ⟨c, h, hc | hc⟩ := h
  · obtain ⟨c', h1, h2⟩ := X.cons h.2 hc
    exact ⟨c', ⟨h.1, h1⟩, .inl h2⟩
  · exact ⟨c, X.lit (nocons_fixed (ld_nocons hct hc)) h, .inr hc⟩

theorem startAt_iff (X : Muted ct w w') {i : Nat} : StartAt ct w t i ↔ StartAt ct w' t i :=
  ⟨X.startAt hct, X.symm.startAt hct⟩

theorem endOrStart_iff (X : Muted ct w w') {i : Nat} : EndOrStart ct w t i ↔ EndOrStart ct w' t i := by
  unfold EndOrStart; rw [X.startAt_iff hct]

omit hct in
theorem silent (X : Muted ct w w') {i : Nat} (h : Silent ct w t i) : Silent ct w' t i := by
  obtain ⟨c, h, hc, h'⟩ := h
  obtain ⟨c', h1, h2⟩ := X.cons h.2 hc
  exact ⟨c', ⟨h.1, h1⟩, h2, X.lit (lit_fixed (by decide)) h'⟩

omit hct in
theorem silent_iff (X : Muted ct w w') {i : Nat} : Silent ct w t i ↔ Silent ct w' t i :=
  ⟨X.silent, X.symm.silent⟩

omit hct in
theorem silent2 (X : Muted ct w w') {i : Nat} {A : Nat → Prop} (hA : ∀ d, A d → ct.isCons d = true ∨ IU d)
    (hA' : ∀ d, ct.isCons d = true → ∀ d', A d' → ct.isCons d' = true → A d)
    (h : Silent2 ct w t A i) : Silent2 ct w' t A i := by
  obtain ⟨c, d, h, hc, h', hd, h''⟩ := h
  obtain ⟨c', h1, h2⟩ := X.cons h.2 hc
  rcases hA d hd with hd' | hd'
  · obtain ⟨d', h3, h4⟩ := X.cons h'.2 hd'
    exact ⟨c', d', ⟨h.1, h1⟩, h2, ⟨h'.1, h3⟩, hA' d' h4 d hd hd', X.lit (lit_fixed (by decide)) h''⟩
  · exact ⟨c', d, ⟨h.1, h1⟩, h2, X.lit (iu_fixed hd') h', hd, X.lit (lit_fixed (by decide)) h''⟩

theorem iu_nocons {d : Nat} (h : IU d) : ct.isCons d = false := by
  cases hc : ct.isCons d with
  | false => rfl
  | true => have := hct.cons d hc; rcases h with rfl | rfl <;> exact absurd this (by decide)

theorem silent2_iu (X : Muted ct w w') {i : Nat} : Silent2 ct w t IU i ↔ Silent2 ct w' t IU i := by
  have h2 : ∀ d, ct.isCons d = true → ∀ d', IU d' → ct.isCons d' = true → IU d := fun d _ d' h h' => by
    rw [iu_nocons hct h] at h'; cases h'
  exact ⟨X.silent2 (fun d h => .inr h) h2, X.symm.silent2 (fun d h => .inr h) h2⟩

omit hct in
theorem silent2_any (X : Muted ct w w') {i : Nat} :
    Silent2 ct w t (fun d => ct.isCons d = true ∨ IU d) i ↔ Silent2 ct w' t (fun d => ct.isCons d = true ∨ IU d) i :=
  ⟨X.silent2 (fun d h => h) fun d h _ _ _ => .inl h, X.symm.silent2 (fun d h => h) fun d h _ _ _ => .inl h⟩

omit hct in
theorem skip_iff (X : Muted ct w w') {i k : Nat} : Skip ct w t i k ↔ Skip ct w' t i k := by
  unfold Skip; rw [X.silent_iff]

theorem skipIU_iff (X : Muted ct w w') {i k : Nat} : SkipIU ct w t i k ↔ SkipIU ct w' t i k := by
  unfold SkipIU; rw [X.silent2_iu hct]

omit hct in
theorem skipAny_iff (X : Muted ct w w') {i k : Nat} : SkipAny ct w t i k ↔ SkipAny ct w' t i k := by
  unfold SkipAny; rw [X.silent_iff, X.silent2_any]

omit hct in
theorem anyFinal (X : Muted ct w w') {i : Nat} (h : ∃ d f, FinalAt ct w t i [] d f) : ∃ d f, FinalAt ct w' t i [] d f := by
  obtain ⟨d, f, h1, h2, h3, h4, h5⟩ := h
  rcases X.2 i with k | ⟨c1, c', g1, g2, -, ⟨g3, -, f', g4, g5⟩, -⟩
  · exact ⟨d, f, ⟨h1.1, k ▸ h1.2⟩, h2, h3, h4, h5⟩
  · exact ⟨c', f', ⟨h1.1, g2⟩, g3, g5, g4, List.not_mem_nil⟩

omit hct in
theorem anyFinal_iff (X : Muted ct w w') {i : Nat} : (∃ d f, FinalAt ct w t i [] d f) ↔ ∃ d f, FinalAt ct w' t i [] d f :=
  ⟨X.anyFinal, X.symm.anyFinal⟩

variable (X : Muted ct w w') (ht : w[t]? ≠ some ch!"์")
include X ht

omit hct in
theorem finalAt {i : Nat} {e c f} (hk : ¬ At w t (i + 1) ch!"์") (h : FinalAt ct w t i e c f) : FinalAt ct w' t i e c f :=
  ⟨(X.fix_iff ht hk).mp h.1, h.2⟩

theorem closed {i e k b f} (hs : ¬ Stuck ct w k) (h : Closed ct w t i e k b f) : Closed ct w' t i e k b f := by
  have hk : ¬ At w t (i + 1) ch!"์" := fun hk => hs (stuck_closed hct hk h)
  obtain ⟨c, h1, h2, h3⟩ := h
  exact ⟨c, X.finalAt ht hk h1, h2, X.skipAny_iff.mp h3⟩

omit ht in
theorem silentTail {i c : Nat} (h : SilentTail ct w t i c) : SilentTail ct w' t i c :=
  ⟨(X.endOrStart_iff hct).mp h.1, h.2.imp (And.imp_left (X.lit (lit_fixed (by decide))))
    (Exists.imp fun _ h => ⟨X.lit (iu_fixed h.2.1) h.1, h.2⟩)⟩

omit hct ht in
theorem links {i c : Nat} (h : Links ct w t i c) : Links ct w' t i c := by
  rcases h with ⟨d, n, h1, h2, h3, h4⟩ | ⟨d, h1, h2, h3, h4⟩
  · obtain ⟨d', k1, k2⟩ := X.cons h1.2 h2
    rcases h4 with h4 | h4
    · exact .inl ⟨d', n, ⟨h1.1, k1⟩, k2, X.lit (lit_fixed ((by decide : linkVowels ⊆ _) h4)) h3, .inl h4⟩
    · obtain ⟨n', k3, k4⟩ := X.cons h3.2 h4
      exact .inl ⟨d', n', ⟨h1.1, k1⟩, k2, ⟨h3.1, k3⟩, .inr k4⟩
  · exact .inr ⟨d, X.lit (nocons_fixed h2) h1, h2, h3, h4⟩

theorem closedX {i e k b f} (hs : ¬ Stuck ct w k) (h : ClosedX ct w t i e k b f) : ClosedX ct w' t i e k b f := by
  have hk : ¬ At w t (i + 1) ch!"์" := fun hk => hs (stuck_closedX hct hk h)
  obtain ⟨c, h1, h2⟩ := h
  exact ⟨c, X.finalAt ht hk h1, h2.imp (And.imp_right X.skipAny_iff.mp)
    (And.imp X.skipAny_iff.mp (Or.imp (And.imp_right (And.imp_right (X.silentTail hct)))
      (And.imp_right (And.imp_right X.links))))⟩

omit hct ht in
theorem ruAt_iff {i : Nat} : RuAt w t i ↔ RuAt w' t i := by
  unfold RuAt
  rw [X.lit_iff (i := i + 1) (lit_fixed (by decide)), X.lit_iff (c := ch!"ๅ") (lit_fixed (by decide)),
    X.lit_iff (c := ch!"า") (lit_fixed (by decide))]

omit hct ht in
theorem withRu {i c snd cls o} (h : WithRu ct w t i c snd cls o) : WithRu ct w' t i c snd cls o := by
  unfold WithRu at h ⊢; simp only [X.anyFinal_iff] at h ⊢; exact h

/-- An onset is one in the other text, or it ends in a silenced letter. -/
theorem onsetAt {i l o} (hi : i < t) (h : OnsetAt ct w t i l o) : OnsetAt ct w' t i l o ∨ At w t o.stop ch!"์" := by
  by_cases hk : At w t (i + 1) ch!"์"
  · right; rw [stuck_onset hct hk h]; exact hk
  have k0 := fun c => X.fix_iff (c := c) ht hk
  obtain ⟨c, snd, cls, h1, h2, h3⟩ := h
  have h1' : w'[i]? = some c := ((k0 c).mp ⟨hi, h1⟩).2
  rcases h3 with h3 | ⟨d, s2, c2, k1, k2, k3, k4⟩ | h3
  · exact .inl ⟨c, snd, cls, h1', h2, .inl h3⟩
  · by_cases hk2 : At w t (i + 2) ch!"์"
    · right
      rcases k4 with ⟨_, _, -, -, -, rfl⟩ | ⟨-, -, -, rfl⟩ | ⟨-, -, rfl⟩ | rfl <;> exact hk2
    · left
      exact ⟨c, snd, cls, h1', h2, .inr (.inl ⟨d, s2, c2, (X.fix_iff ht hk2).mp k1, k2,
        fun k => k3 (k.imp_right (X.symm.lit (lit_fixed (by decide)))), k4⟩)⟩
  · exact .inl ⟨c, snd, cls, h1', h2, .inr (.inr (h3.imp (X.ruAt_iff).mp X.withRu))⟩

theorem wholeAt {i o r} (hi : i < t) (hn : ¬ Stuck ct w i) (h : WholeAt ct w t i o r) : WholeAt ct w' t i o r := by
  obtain ⟨c, snd, cls, h1, h2, h3⟩ := h
  have hk : w[i + 1]? ≠ some ch!"์" := fun h => hn (.inr ⟨c, h1, h2.1, h⟩)
  refine ⟨c, snd, cls, (X.fix hk).symm.trans h1, h2, ?_⟩
  have hd : ∀ {x}, x = ch!"ิ" ∨ x = ch!"ี" → At w t (i + 2) x → At w t (i + 1) ch!"ด" → At w' t (i + 1) ch!"ด" := by
    intro x hx h2 h1
    refine (X.fix_iff ht fun hk => ?_).mp h1
    have := at_eq h2 hk
    subst this
    exact absurd hx (by decide)
  rcases h3 with ⟨a, h⟩ | ⟨a, b, d, e, h⟩ | ⟨a, b, d, h⟩ | ⟨a, b, h⟩
  · exact .inl ⟨X.startAt hct a, h⟩
  · refine .inr (.inl ⟨a, ?_, d, e.imp (X.lit (lit_fixed (by decide))) (X.lit (lit_fixed (by decide))), h⟩)
    exact e.elim (fun e => hd (.inl rfl) e b) fun e => hd (.inr rfl) e b
  · refine .inr (.inr (.inl ⟨X.lit (lit_fixed (by decide)) a, b, mt (X.symm.lit (lit_fixed (by decide))) d, ?_⟩))
    exact h.imp (And.imp_left (X.startAt hct)) (Or.imp (And.imp_left (X.lit (lit_fixed (by decide))))
      (And.imp_left (X.lit (lit_fixed (by decide)))))
  · exact .inr (.inr (.inr ⟨X.ruAt_iff.mp a, b.imp_left (And.imp_right (mt X.anyFinal_iff.mpr)), h⟩))

/-! ## Rimes -/

variable {r : Rime} (hs : ¬ Stuck ct w r.stop)

omit hct ht in
theorem open_ {j v f m} (h : Open ct w t j v f m r) : Open ct w' t j v f m r := by
  obtain ⟨k, h1, rfl⟩ := h
  exact ⟨k, X.skip_iff.mp h1, rfl⟩

omit hct ht in
theorem markAt {i k : Nat} {m : Tone} (hct : ct.Ok) (h : MarkAt ct w t i m k) : MarkAt ct w' t i m k := by
  rcases h with ⟨c, h1, h2, h3⟩ | ⟨h1, h2⟩
  · exact .inl ⟨c, X.lit (nocons_fixed (tone_noCons hct h2)) h1, h2, h3⟩
  · refine .inr ⟨fun c hc => ?_, h2⟩
    cases hc' : ct.isTone c with
    | false => rfl
    | true => rw [← hc']; exact h1 c (X.symm.lit (nocons_fixed (tone_noCons hct hc')) hc)

include hs

theorem shut_ {j e v m} (h : Shut ct w t j e v m r) : Shut ct w' t j e v m r := by
  obtain ⟨k, b, f, h1, rfl⟩ := h
  exact ⟨k, b, f, X.closed hct ht hs h1, rfl⟩

theorem shutX_ {j e v m} (h : ShutX ct w t j e v m r) : ShutX ct w' t j e v m r := by
  obtain ⟨k, b, f, h1, rfl⟩ := h
  exact ⟨k, b, f, X.closedX hct ht hs h1, rfl⟩

theorem skipShut {j e v m} (h : ∃ k', Skip ct w t j k' ∧ Shut ct w t k' e v m r) :
    ∃ k', Skip ct w' t j k' ∧ Shut ct w' t k' e v m r :=
  h.imp fun _ => And.imp X.skip_iff.mp (X.shut_ hct ht hs)

theorem skipShutX {j e v m} (h : ∃ k', Skip ct w t j k' ∧ ShutX ct w t k' e v m r) :
    ∃ k', Skip ct w' t j k' ∧ ShutX ct w' t k' e v m r :=
  h.imp fun _ => And.imp X.skip_iff.mp (X.shutX_ hct ht hs)

theorem hanRime {j} (h : HanRime ct w t j r) : HanRime ct w' t j r := by
  obtain ⟨h0, m, k, hm, h⟩ := h
  refine ⟨X.lit (lit_fixed (by decide)) h0, m, k, X.markAt hct hm, ?_⟩
  have la : ∀ {i}, At w t i ch!"ะ" ↔ At w' t i ch!"ะ" := X.lit_iff (lit_fixed (by decide))
  by_cases hk : At w t (k + 1) ch!"์"
  · exfalso
    rcases h with ⟨a, b, h⟩ | ⟨a, b, h⟩ | ⟨a, b, h⟩ | ⟨a, b, h⟩
    · exact absurd (at_eq b hk) (by decide)
    · exact hs (stuck_open hct hk h)
    · exact hs (stuck_shutX hct hk h)
    · exact hs (stuck_shut hct hk h)
  · have lw : At w t k ch!"ว" ↔ At w' t k ch!"ว" := X.fix_iff ht hk
    exact h.imp (And.imp lw.mp (And.imp la.mp X.open_)) (Or.imp (And.imp lw.mp (And.imp (mt la.mpr) X.open_))
      (Or.imp (And.imp (mt lw.mpr) (And.imp_right (X.shutX_ hct ht hs))) (And.imp (mt lw.mpr) (And.imp_right (X.shut_ hct ht hs)))))

omit ht hs in
theorem ld_none {k} (h : ∀ c, At w t k c → ct.isLdVowel c = false) : ∀ c, At w' t k c → ct.isLdVowel c = false := by
  intro c hc
  cases hl : ct.isLdVowel c with
  | false => rfl
  | true => rw [← hl]; exact h c (X.symm.lit (nocons_fixed (ld_nocons hct hl)) hc)

omit ht hs in
theorem ld_other {k} (h : ∃ c, At w t k c ∧ ct.isLdVowel c = false) : ∃ c, At w' t k c ∧ ct.isLdVowel c = false := by
  obtain ⟨c, h1, h2⟩ := h
  rcases X.2 k with e | ⟨c1, c', -, g2, -, g4, -⟩
  · exact ⟨c, ⟨h1.1, e ▸ h1.2⟩, h2⟩
  · refine ⟨c', ⟨h1.1, g2⟩, ?_⟩
    cases hl : ct.isLdVowel c' with
    | false => rfl
    | true => exact absurd g4 (nocons_fixed (ld_nocons hct hl))

theorem signFinal {k v m} (h : SignFinal ct w t k v m r) : SignFinal ct w' t k v m r := by
  obtain ⟨h0, h⟩ := h
  have lo : ∀ {i}, At w t i ch!"อ" ↔ At w' t i ch!"อ" := X.lit_iff (lit_fixed (by decide))
  exact ⟨X.ld_none hct h0, h.imp (And.imp_right (And.imp lo.mp X.open_)) (Or.imp (And.imp_right (And.imp (mt lo.mpr) (X.shut_ hct ht hs)))
    (Or.imp (And.imp_right (And.imp_right (X.shut_ hct ht hs))) (And.imp_right (And.imp_right (And.imp_right (X.shutX_ hct ht hs))))))⟩

theorem signRime {j} (h : SignRime ct w t j r) : SignRime ct w' t j r := by
  obtain ⟨c, v, m, k, hc, hv, hcv, hm, h⟩ := h
  refine ⟨c, v, m, k, X.lit (lit_fixed ?_) hc, hv, hcv, X.markAt hct hm, ?_⟩
  · exact (by decide : ∀ x ∈ signVowels, x.1 ∈ u!"หอฮรฤฦะาๅำัิีึืุู็์.เแโใไ่้๊๋ ") _ hcv
  refine h.imp (And.imp_right (And.imp (X.ld_other hct) (X.signFinal hct ht hs)))
    (And.imp (mt (And.imp_right (X.symm.ld_other hct))) (Or.imp (And.imp X.silent (Or.imp_right (X.signFinal hct ht hs))) (Or.imp ?_ ?_)))
  · exact And.imp (mt X.silent_iff.mpr) (And.imp_left (X.silent2_iu hct).mp)
  · exact And.imp (mt X.silent_iff.mpr) (And.imp (mt (X.silent2_iu hct).mpr) (Or.imp_right (X.signFinal hct ht hs)))

theorem shortORime {j} (h : ShortORime ct w t j r) : ShortORime ct w' t j r :=
  ⟨X.lit (lit_fixed (by decide)) h.1, X.lit (lit_fixed (by decide)) h.2.1, X.skipShut hct ht hs h.2.2⟩

theorem roRime {o k m} (h : RoRime ct w t o k m r) : RoRime ct w' t o k m r := by
  refine ⟨X.lit (lit_fixed (by decide)) h.1, h.2.imp (And.imp_right X.open_) (Exists.imp fun k' h => ?_)⟩
  refine ⟨by rw [← X.skip_iff]; exact h.1, X.lit (lit_fixed (by decide)) h.2.1, h.2.2.imp X.open_ (And.imp (mt X.silent_iff.mpr)
    (X.shutX_ hct ht hs))⟩

theorem plainRime {o l j} (h : PlainRime ct w t o l j r) : PlainRime ct w' t o l j r := by
  obtain ⟨m, k, hm, h⟩ := h
  refine ⟨m, k, X.markAt hct hm, ?_⟩
  rcases h with ⟨a, h⟩ | ⟨a, h⟩ | ⟨a, h⟩ | ⟨a, h⟩ | ⟨a, h⟩ | h | ⟨a, b, c, h⟩ | ⟨v, c, a, b, d, e, h⟩
  · exact .inl ⟨X.lit (lit_fixed (by decide)) a, X.open_ h⟩
  · exact .inr (.inl ⟨X.lit (lit_fixed (by decide)) a, h.imp X.open_ (X.skipShutX hct ht hs)⟩)
  · exact .inr (.inr (.inl ⟨X.lit (lit_fixed (by decide)) a, X.open_ h⟩))
  · exact .inr (.inr (.inr (.inl ⟨(X.fix_iff ht fun hk => stuck_shut0 hct hk h).mp a, X.shut_ hct ht hs h⟩)))
  · exact .inr (.inr (.inr (.inr (.inl ⟨X.lit (lit_fixed (by decide)) a, h.imp X.open_ (X.skipShut hct ht hs)⟩))))
  · exact .inr (.inr (.inr (.inr (.inr (.inl (X.roRime hct ht hs h))))))
  · exact .inr (.inr (.inr (.inr (.inr (.inr (.inl ⟨a, b, c, X.shut_ hct ht hs h⟩))))))
  · refine .inr (.inr (.inr (.inr (.inr (.inr (.inr ⟨v, c, a, ?_, d, e, h.imp_right (X.shutX_ hct ht hs)⟩))))))
    refine (X.fix_iff ht fun hk => ?_).mp b
    rcases h with rfl | h
    · exact hs (.inr ⟨c, b.2, d, hk.2⟩)
    · exact hs (stuck_shutX hct hk h)

theorem consRime {o l} (h : ConsRime ct w t o l r) : ConsRime ct w' t o l r :=
  h.imp (X.hanRime hct ht hs) (Or.imp (X.signRime hct ht hs) (Or.imp (X.shortORime hct ht hs) (X.plainRime hct ht hs)))

theorem midRime {sign mid short long j full} (h1 : ¬ Mutable ct sign)
    (h : MidRime ct w t sign mid short long j full r) : MidRime ct w' t sign mid short long j full r := by
  obtain ⟨h0, m, k, hm, hd, h⟩ := h
  have la : ∀ {i}, At w t i ch!"ะ" ↔ At w' t i ch!"ะ" := X.lit_iff (lit_fixed (by decide))
  refine ⟨X.lit h1 h0, m, k, X.markAt hct hm, (X.fix_iff ht fun hk => ?_).mp hd, ?_⟩
  · rcases h with ⟨a, h⟩ | ⟨a, h | ⟨k', b, h⟩⟩
    · exact absurd (at_eq a hk) (by decide)
    · exact hs (stuck_open hct hk h)
    · cases full with
      | true => exact stuck_skipShutX hct hk ⟨k', b, h⟩
      | false => exact stuck_skipShut hct hk ⟨k', b, h⟩
  · refine h.imp (And.imp la.mp X.open_) (And.imp (mt la.mpr) (Or.imp X.open_ fun ⟨k', b, h⟩ => ?_))
    cases full with
    | true => exact ⟨k', X.skip_iff.mp b, X.shutX_ hct ht hs h⟩
    | false => exact ⟨k', X.skip_iff.mp b, X.shut_ hct ht hs h⟩

theorem eRime {o} (h : ERime ct w t o r) : ERime ct w' t o r := by
  have la : ∀ {i}, At w t i ch!"ะ" ↔ At w' t i ch!"ะ" := X.lit_iff (lit_fixed (by decide))
  rcases h with h | ⟨a, m, k, k', hm, b, h⟩ | h | h | ⟨a, h⟩ | ⟨hlt, m, k, hm, h⟩
  · exact .inl h
  · exact .inr (.inl ⟨X.lit (lit_fixed (by decide)) a, m, k, k', X.markAt hct hm, X.skip_iff.mp b, X.shut_ hct ht hs h⟩)
  · exact .inr (.inr (.inl (X.midRime hct ht hs (lit_fixed (by decide)) h)))
  · exact .inr (.inr (.inr (.inl (X.midRime hct ht hs (lit_fixed (by decide)) h))))
  · exact .inr (.inr (.inr (.inr (.inl ⟨X.lit (lit_fixed (by decide)) a, X.shut_ hct ht hs h⟩))))
  · refine .inr (.inr (.inr (.inr (.inr ⟨hlt, m, k, X.markAt hct hm, ?_⟩))))
    rcases h with h | ⟨a, h⟩ | ⟨a, b, h⟩ | ⟨a, h⟩ | ⟨a, b, h⟩ | ⟨c, a, b, d, e, n, h⟩
    · exact .inl h
    · exact .inr (.inl ⟨X.lit (lit_fixed (by decide)) a, h.imp (And.imp_right X.open_) (Or.imp (And.imp la.mp X.open_)
        (And.imp (mt la.mpr) X.open_))⟩)
    · exact .inr (.inr (.inl ⟨la.mp a, b, X.open_ h⟩))
    · exact .inr (.inr (.inr (.inl ⟨X.lit (lit_fixed (by decide)) a, h.imp (And.imp la.mp X.open_) (And.imp (mt la.mpr) X.open_)⟩)))
    · exact .inr (.inr (.inr (.inr (.inl ⟨(X.fix_iff ht fun hk => stuck_endOrStart hct hk b).mp a, (X.endOrStart_iff hct).mp b,
        X.open_ h⟩))))
    · obtain ⟨c', a', k1, k2, k3⟩ : ∃ c', At w' t k c' ∧ c' ∉ u!"อะา" ∧ ¬ (c' = ch!"ย" ∧ EndOrStart ct w' t (k + 1)) ∧
          ¬ (k = o.stop ∧ c' ∈ u!"ิีื็") := by
        rcases X.2 k with g | ⟨c1, c', g1, g2, g3, g4, g5, g6⟩
        · exact ⟨c, ⟨a.1, g ▸ a.2⟩, b, fun h => d (h.imp_right (X.endOrStart_iff hct).mpr), e⟩
        · have hx := mutable_final g4
          have hk : At w' t (k + 1) ch!"์" := ⟨by
            by_contra hn
            have := a.1
            obtain rfl : t = k + 1 := by omega
            exact ht g5, g6⟩
          exact ⟨c', ⟨a.1, g2⟩, fun h => hx ((by decide : u!"อะา" ⊆ _) h), fun h => stuck_endOrStart hct hk h.2,
            fun h => hx ((by decide : u!"ิีื็" ⊆ _) h.2)⟩
      exact .inr (.inr (.inr (.inr (.inr ⟨c', a', k1, k2, k3, n, h.imp X.open_ (X.skipShutX hct ht hs)⟩))))

theorem aeRime {k m} (h : AeRime ct w t k m r) : AeRime ct w' t k m r := by
  have la : ∀ {i}, At w t i ch!"ะ" ↔ At w' t i ch!"ะ" := X.lit_iff (lit_fixed (by decide))
  have lm : ∀ {i}, At w t i ch!"็" ↔ At w' t i ch!"็" := X.lit_iff (lit_fixed (by decide))
  exact h.imp (And.imp la.mp X.open_) (Or.imp (And.imp lm.mp (X.shut_ hct ht hs)) (And.imp (mt la.mpr) (And.imp (mt lm.mpr)
    (Or.imp X.open_ (X.skipShut hct ht hs)))))

theorem oRime {k m} (h : ORime ct w t k m r) : ORime ct w' t k m r := by
  have la : ∀ {i}, At w t i ch!"ะ" ↔ At w' t i ch!"ะ" := X.lit_iff (lit_fixed (by decide))
  have s1 : ∀ {i}, Silent ct w t i ↔ Silent ct w' t i := X.silent_iff
  have s2 : ∀ {i}, Silent2 ct w t IU i ↔ Silent2 ct w' t IU i := X.silent2_iu hct
  refine h.imp (And.imp la.mp (Or.imp (And.imp_left s1.mp) (And.imp (mt s1.mpr) (Exists.imp fun _ => And.imp_left (X.skipIU_iff hct).mp))))
    (And.imp (mt la.mpr) (Or.imp (And.imp s1.mp (Or.imp_right (X.shutX_ hct ht hs))) (Or.imp ?_ ?_)))
  · exact And.imp (mt s1.mpr) (And.imp_left s2.mp)
  · exact And.imp (mt s1.mpr) (And.imp (mt s2.mpr) (Or.imp_right (X.shutX_ hct ht hs)))

omit hs in
theorem aiRime {b k m} (h : AiRime ct w t b k m r) : AiRime ct w' t b k m r := by
  refine h.imp X.open_ fun ⟨a, c, d, e⟩ => ⟨a, ?_, (X.endOrStart_iff hct).mp d, e⟩
  exact (X.fix_iff ht fun hk => stuck_endOrStart hct hk d).mp c

theorem leadRime {v j} (h : LeadRime ct w t v j r) : LeadRime ct w' t v j r := by
  obtain ⟨m, k, hm, h⟩ := h
  exact ⟨m, k, X.markAt hct hm, h.imp (And.imp_right (X.aeRime hct ht hs)) (Or.imp (And.imp_right (X.oRime hct ht hs))
    (Or.imp (And.imp_right (X.aiRime hct ht)) (And.imp_right (X.aiRime hct ht))))⟩

theorem ruRime {i} (h : RuRime ct w t i r) : RuRime ct w' t i r := by
  rcases h with h | ⟨a, h⟩ | ⟨d, a, b, h⟩
  · exact .inl h
  · exact .inr (.inl ⟨a.imp (X.lit (lit_fixed (by decide))) (X.lit (lit_fixed (by decide))), h⟩)
  · have hk : ¬ At w t (i + 1 + 1) ch!"์" := fun hk => by
      rcases h with ⟨-, rfl⟩ | ⟨c, -⟩
      · exact hs (.inr ⟨d, a.2, b, hk.2⟩)
      · exact c (.inr ⟨hk.1, stuck_start hct hk⟩)
    refine .inr (.inr ⟨d, (X.fix_iff ht hk).mp a, b, ?_⟩)
    rw [← X.startAt_iff hct]
    exact h.imp_right (And.imp_right (X.shutX_ hct ht hs))

/-- What is spelled in the one text is spelled in the other, if it does not end before a silenced letter. -/
theorem spelled {i l o} (hi : i < t) (hn : ¬ Stuck ct w i) (h : Spelled ct w t i l o r) : Spelled ct w' t i l o r := by
  obtain ⟨c, hc, h⟩ := h
  have hk : ct.isCons c = true → w'[i]? = some c := fun a => (X.fix fun hk => hn (.inr ⟨c, hc, a, hk⟩)).symm.trans hc
  rcases h with ⟨a, ⟨b, d, h⟩ | ⟨h, d⟩⟩ | ⟨rfl, a, b, h⟩ | ⟨a, b, d, h⟩ | ⟨a, b, h⟩
  · rcases X.onsetAt hct ht hi b with b | b
    · exact ⟨c, hk a, .inl ⟨a, .inl ⟨b, d, X.consRime hct ht hs h⟩⟩⟩
    · exact (stuck_consRime hct b h).elim
  · exact ⟨c, hk a, .inl ⟨a, .inr ⟨X.wholeAt hct ht hi hn h, d⟩⟩⟩
  · rcases X.onsetAt hct ht a b with b | b
    · exact ⟨_, X.keep (lit_fixed (by decide)) hc, .inr (.inl ⟨rfl, a, b, X.eRime hct ht hs h⟩)⟩
    · exact absurd (stuck_eRime hct b h) hs
  · refine ⟨c, X.keep (nocons_fixed (ld_nocons hct a)) hc, .inr (.inr (.inl ⟨a, b, ?_, X.leadRime hct ht hs h⟩))⟩
    by_cases hi' : i + 1 < t
    · exact (X.onsetAt hct ht hi' d).resolve_right fun k => hs (stuck_leadRime hct k h)
    · obtain ⟨c2, snd, cls, h1, h2, rfl | ⟨_, _, _, h3, -⟩ | ⟨h3, -⟩⟩ := d
      · have hk2 : w[i + 1 + 1]? ≠ some ch!"์" := fun h' => hs (by rw [lead_past (by show t ≤ i + 1 + 1; omega) h]; exact .inl h')
        exact ⟨c2, snd, cls, (X.fix hk2).symm.trans h1, h2, .inl rfl⟩
      · exact absurd h3.1 (by omega)
      · exact absurd h3.1.1 (by omega)
  · exact ⟨c, X.keep (lit_fixed (by rcases a with rfl | rfl <;> decide)) hc, .inr (.inr (.inr ⟨a, b, X.ruRime hct ht hs h⟩))⟩

end Muted

/-! ## Readings -/

theorem stuck_iff (X : Muted ct w w') {k : Nat} : Stuck ct w k ↔ Stuck ct w' k := by
  have key : ∀ {w w'}, Muted ct w w' → Stuck ct w k → Stuck ct w' k := by
    intro w w' X h
    rcases h with h | ⟨c, h1, h2, h3⟩
    · exact .inl (X.keep (lit_fixed (by decide)) h)
    · obtain ⟨c', k1, k2⟩ := X.cons h1 h2
      exact .inr ⟨c', k1, k2, X.keep (lit_fixed (by decide)) h3⟩
  exact ⟨key X, key X.symm⟩

theorem stuck_text {k : Nat} (h : Stuck ct w k) : TextAt ct w k := by
  rcases h with h | ⟨c, h1, h2, -⟩
  · exact ⟨_, h, .inr (.inr (.inr (by decide)))⟩
  · exact ⟨c, h1, .inl h2⟩

namespace Muted

theorem textAt (X : Muted ct w w') {i : Nat} (h : TextAt ct w i) : TextAt ct w' i := by
  obtain ⟨c, h1, h2⟩ := h
  rcases X.2 i with e | ⟨c1, c', -, g2, -, g4, -⟩
  · exact ⟨c, e ▸ h1, h2⟩
  · exact ⟨c', g2, .inl g4.1⟩

theorem textAt_iff (X : Muted ct w w') {i : Nat} : TextAt ct w i ↔ TextAt ct w' i := ⟨X.textAt, X.symm.textAt⟩

variable (X : Muted ct w w') {brk : List Int}
include X

theorem tokenTo_iff {p : Nat} : TokenTo ct w brk p t ↔ TokenTo ct w' brk p t := by
  unfold TokenTo nextBreak
  simp only [X.textAt_iff, X.1]

theorem otherTo {p q : Nat} (h : OtherTo ct w p q) : OtherTo ct w' p q := by
  unfold OtherTo at h ⊢
  simpa only [X.textAt_iff, X.1] using h

theorem other_piece {p q : Nat} (h : OtherTo ct w p q) : piece w p q = piece w' p q := by
  refine Exchanged.piece_eq fun i h1 h2 => ?_
  rcases X.2 i with e | ⟨c, c', g1, g2, g3, -⟩
  · exact e
  · exact absurd ⟨c, g1, .inl g3.1⟩ (h.2.2.1 i h1 h2)

theorem abbr_fix {p e : Nat} (hct : ct.Ok) (ht : w[t]? ≠ some ch!"์") (h : IsAbbr ct w p t e) {i : Nat} (h1 : p ≤ i) (h2 : i < e) :
    w[i]? = w'[i]? := by
  rcases X.2 i with g | ⟨c, c', g1, g2, g3, g4, g5, g6⟩
  · exact g
  · exfalso
    have hn : ∀ {i : Nat}, w[i]? = some ch!"์" → ¬ ∃ c, w[i]? = some c ∧ ct.isCons c = true := by
      rintro i h ⟨c, h', hc⟩
      rw [(kill_range hct (Option.some.inj (h'.symm.trans h))).1] at hc; cases hc
    rcases h.shape with ⟨n, -, h3, h4, h5⟩ | ⟨h3, rfl, h5⟩
    · rcases Nat.lt_trichotomy (i + 1) (p + n) with hi | hi | hi
      · exact hn g5 (h4 (i + 1) (by omega) hi)
      · rw [hi, h5] at g5; exact absurd g5 (by decide)
      · obtain rfl : i = p + n := by omega
        rw [g1] at h5; cases h5
        exact absurd g3 (lit_fixed (by decide))
    · obtain rfl : i = p := by omega
      exact ht (h3 ▸ g5)

theorem isAbbr {p e : Nat} (hct : ct.Ok) (ht : w[t]? ≠ some ch!"์") (h : IsAbbr ct w p t e) : IsAbbr ct w' p t e where
  start := h.start.imp_right (Or.imp (X.keep (lit_fixed (by decide))) (X.keep (lit_fixed (by decide))))
  le := h.le
  shape := by
    have hc : ∀ {i : Nat}, (∃ c, w[i]? = some c ∧ ct.isCons c = true) → ∃ c, w'[i]? = some c ∧ ct.isCons c = true :=
      fun ⟨c, h1, h2⟩ => X.cons h1 h2
    rcases h.shape with ⟨n, h1, h2, h3, h4⟩ | ⟨h1, h2, h3⟩
    · exact .inl ⟨n, h1, h2, fun i a b => hc (h3 i a b), X.keep (lit_fixed (by decide)) h4⟩
    · exact .inr ⟨h1, h2, hc h3⟩

theorem abbrNames {p e : Nat} {new : List (Entry Syl)} (hct : ct.Ok) (ht : w[t]? ≠ some ch!"์") (ha : IsAbbr ct w p t e)
    (h : AbbrNames w p e new) : AbbrNames w' p e new := by
  have hd : w[p]? = some ch!"." ↔ w'[p]? = some ch!"." := ⟨X.keep (lit_fixed (by decide)), X.symm.keep (lit_fixed (by decide))⟩
  unfold AbbrNames at h ⊢
  rw [← Exchanged.piece_eq fun i => X.abbr_fix hct ht ha]
  exact h.imp (And.imp_left hd.mp) (And.imp_left (mt hd.mpr))

theorem wordAt (hct : ct.Ok) {look : List Nat → Option Str} (hl : ∀ p q, p < q → q ≤ w.length → look (piece w p q) = look (piece w' p q))
    {p q : Nat} {data : Str} (h : WordAt ct w look p t q data) : WordAt ct w' look p t q data := by
  obtain ⟨h1, h2, h3, h4, h5⟩ := h
  refine ⟨h1, X.1 ▸ h2, (hl p q h1 h2).symm.trans h3, h4, h5.imp_right fun h => ?_⟩
  rw [← X.1]
  exact X.startAt hct h

end Muted

/-- No word break stands before thanthakhat. -/
theorem token_end {brk : List Int} (hb : ∀ b : Nat, (b : Int) ∈ brk → w[b]? ≠ some ch!"์") {p : Nat} (h : TokenTo ct w brk p t) :
    w[t]? ≠ some ch!"์" := by
  obtain ⟨-, h1, -, -, h2 | ⟨-, h2⟩⟩ := h
  · unfold nextBreak at h2
    cases hf : brk.find? fun b => decide (b > (p : Int)) with
    | some b =>
      rw [hf] at h2
      exact hb t (h2 ▸ List.mem_of_find?_eq_some hf)
    | none =>
      rw [hf] at h2
      have : t = w.length := Int.ofNat_inj.mp h2
      rw [this, List.getElem?_eq_none (Nat.le_refl _)]
      exact nofun
  · exact fun h => h2 (stuck_text (.inl h))

section
variable (hct : ct.Ok) {look : List Nat → Option Str} {brk : List Int}
  (hb : ∀ b : Nat, (b : Int) ∈ brk → w[b]? ≠ some ch!"์") (hx : ∀ x data, look x = some data → ¬ BeginsSilent x)
include hct hb hx

/-- Nothing is read from a silenced letter on. -/
theorem stuck_rule {c c1 : Config} (h : Rule ct w look brk c c1) : ¬ Stuck ct w c.pos := by
  intro hs
  have hp : ∀ {p q : Nat}, p < q → q ≤ w.length → (piece w p q)[0]? = w[p]? := fun {p q} h1 h2 => by
    unfold piece
    rw [List.getElem?_take_of_lt (by omega), List.getElem?_drop, Nat.add_zero]
  cases h with
  | other h => exact h.2.2.1 _ (Nat.le_refl _) h.1 (stuck_text hs)
  | @word p l es t q data strs str h1 h2 h3 h4 =>
    have hb' := hx _ _ h2.2.2.1
    have ht := token_end hb h1
    rcases hs with hs | ⟨c, k1, k2, k3⟩
    · exact hb' (.inl ((hp h2.1 h2.2.1).trans hs))
    · refine hb' (.inr ?_)
      have hq : p + 1 < q := by
        by_contra hn
        have := h2.1
        obtain rfl : q = p + 1 := by omega
        rcases h2.2.2.2.2 with e | ⟨c, e1, e2⟩
        · exact ht (e ▸ k3)
        · exact stuck_start hct (t := w.length) ⟨e1.1, k3⟩ ⟨c, e1, e2⟩
      unfold piece
      rw [List.getElem?_take_of_lt (by omega), List.getElem?_drop]
      exact k3
  | @abbr p l es t q new h1 h2 h3 h4 =>
    have ht := token_end hb h1
    have hn : ∀ {i : Nat}, w[i]? = some ch!"์" → ¬ ∃ c, w[i]? = some c ∧ ct.isCons c = true := by
      rintro i h ⟨c, h', hc⟩
      rw [(kill_range hct (Option.some.inj (h'.symm.trans h))).1] at hc; cases hc
    rcases h3.shape with ⟨n, -, k1, k2, k3⟩ | ⟨k1, rfl, k2⟩
    · rcases hs with hs | ⟨c, g1, g2, g3⟩
      · rcases Nat.eq_zero_or_pos n with rfl | hn'
        · have hs' : w[p]? = some ch!"์" := hs
          rw [show p + 0 = p from rfl, hs'] at k3; exact absurd k3 (by decide)
        · exact hn hs (k2 p (Nat.le_refl _) (by omega))
      · rcases n with _ | _ | n
        · have g1' : w[p]? = some c := g1
          rw [show p + 0 = p from rfl, g1'] at k3; cases k3
          have := hct.cons _ g2
          exact absurd this (by decide)
        · have g3' : w[p + 1]? = some ch!"์" := g3
          rw [show p + (0 + 1) = p + 1 from rfl, g3'] at k3; exact absurd k3 (by decide)
        · exact hn g3 (k2 (p + 1) (by omega) (by omega))
    · rcases hs with hs | ⟨c, g1, g2, g3⟩
      · exact hn hs k2
      · exact ht (k1 ▸ g3)
  | syl h1 h2 h3 h4 => exact stuck_spelled hct (token_end hb h1) h1.1 hs h4
  | dot h1 h2 h3 h4 =>
    rcases hs with hs | ⟨c, g1, g2, g3⟩
    · exact absurd (h4.symm.trans hs) (by decide)
    · have := h4.symm.trans g1
      cases this
      exact absurd (hct.cons _ g2) (by decide)

variable (X : Muted ct w w') (hl : ∀ p q, p < q → q ≤ w.length → look (piece w p q) = look (piece w' p q))
include X hl

theorem muRule {c c1 : Config} (h : Rule ct w look brk c c1) (hs : ¬ Stuck ct w c1.pos) : Rule ct w' look brk c c1 := by
  have hn := stuck_rule hct hb hx h
  have hl' : ∀ p q, p < q → q ≤ w'.length → look (piece w' p q) = look (piece w p q) :=
    fun p q h1 h2 => (hl p q h1 (X.1 ▸ h2)).symm
  have hno : ∀ {p t}, (∀ q data, ¬ WordAt ct w look p t q data) → ∀ q data, ¬ WordAt ct w' look p t q data :=
    fun h q data hw => h q data (X.symm.wordAt hct hl' hw)
  have ht' : ∀ {t : Nat}, w[t]? ≠ some ch!"์" → w'[t]? ≠ some ch!"์" := fun h h' => h (X.symm.keep (lit_fixed (by decide)) h')
  have hna : ∀ {p t : Nat}, w[t]? ≠ some ch!"์" → (∀ q, ¬ IsAbbr ct w p t q) → ∀ q, ¬ IsAbbr ct w' p t q :=
    fun ht h q hw => h q (X.symm.isAbbr hct (ht' ht) hw)
  cases h with
  | other h => rw [X.other_piece h]; exact .other (X.otherTo h)
  | word h1 h2 h3 h4 => exact .word (X.tokenTo_iff.mp h1) (X.wordAt hct hl h2) h3 h4
  | abbr h1 h2 h3 h4 =>
    exact .abbr (X.tokenTo_iff.mp h1) (hno h2) (X.isAbbr hct (token_end hb h1) h3) (X.abbrNames hct (token_end hb h1) h3 h4)
  | syl h1 h2 h3 h4 =>
    exact .syl (X.tokenTo_iff.mp h1) (hno h2) (hna (token_end hb h1) h3) (X.spelled hct (token_end hb h1) hs h1.1 hn h4)
  | dot h1 h2 h3 h4 =>
    exact .dot (X.tokenTo_iff.mp h1) (hno h2) (hna (token_end hb h1) h3) (X.keep (lit_fixed (by decide)) h4)

theorem muDeriv {c : Config} (h : RuleDeriv ct w look brk c) (hs : ¬ Stuck ct w c.pos) : RuleDeriv ct w' look brk c := by
  induction h with
  | refl => exact .refl
  | tail _ h ih => exact (ih (stuck_rule hct hb hx h)).tail (muRule hct hb hx X hl h hs)

theorem muReading {es : List (Entry Syl)} (h : RuleReading ct w look brk es) : RuleReading ct w' look brk es := by
  obtain ⟨c, h1, h2, rfl⟩ := h
  refine ⟨c, muDeriv hct hb hx X hl h1 ?_, X.1 ▸ h2, rfl⟩
  rintro (h | ⟨c', h, -⟩) <;> rw [List.getElem?_eq_none h2] at h <;> cases h

theorem muDeadEnd {c : Config} (h : DeadEnd ct w look brk c) : DeadEnd ct w' look brk c := by
  obtain ⟨h1, h2, ⟨x, h3, h4, h5⟩, t, h6, h7⟩ := h
  refine ⟨muDeriv hct hb hx X hl h1 ?_, by rw [← X.1]; exact h2, ⟨x, X.keep (nocons_fixed (ld_nocons hct h4)) h3, h4, h5⟩, t,
    X.tokenTo_iff.mp h6, fun q data hw => h7 q data (X.symm.wordAt hct (fun p q h1 h2 => (hl p q h1 (X.1 ▸ h2)).symm) hw)⟩
  rintro (h | ⟨c', h, hc, -⟩)
  · rw [h3] at h; cases h
    rw [(kill_range hct rfl).2.1] at h4; cases h4
  · rw [h3] at h; cases h
    rw [ld_nocons hct h4] at hc; cases hc

end

end Thpronun
