import Verif.Spec.Wide
import Verif.Lemmas.Count

/-! # How many letters a syllable takes: helper lemmas -/

namespace Thpronun
open Res Spec DAG

variable {ct : CType} {w : U16Str} {t : Nat} {brk : List Int} {look : List Nat → Option Str}

namespace Wide

theorem skip_le {i k : Nat} (h : Skip ct w t i k) : k ≤ i + 2 := by
  rcases h with ⟨-, rfl⟩ | ⟨-, rfl⟩ <;> omega

theorem skipIU_le {i k : Nat} (h : SkipIU ct w t i k) : k ≤ i + 3 := by
  rcases h with ⟨-, rfl⟩ | ⟨-, rfl⟩ <;> omega

theorem markAt_le {i k : Nat} {m : Tone} (h : MarkAt ct w t i m k) : k ≤ i + 1 := by
  rcases h with ⟨_, -, -, -, rfl⟩ | ⟨-, -, rfl⟩ <;> omega

theorem skipAny_le {i k : Nat} (h : SkipAny ct w t i k) : k ≤ i + 3 := by
  rcases h with ⟨-, rfl⟩ | ⟨-, -, rfl⟩ | ⟨-, -, rfl⟩ <;> omega

theorem onsetAt_le {i : Nat} {l : Bool} {o : Onset} (h : OnsetAt ct w t i l o) : o.stop ≤ i + 2 := by
  obtain ⟨c, snd, cls, -, -, rfl | ⟨e, s2, c2, -, -, -, h⟩ | ⟨-, h⟩⟩ := h
  · exact Nat.le_succ _
  · rcases h with ⟨_, _, -, -, -, rfl⟩ | ⟨-, -, -, rfl⟩ | ⟨-, -, rfl⟩ | rfl <;> exact Nat.le_refl _
  · rcases h with ⟨-, rfl⟩ | ⟨-, rfl | rfl⟩ | ⟨-, rfl⟩ | ⟨-, rfl⟩ | ⟨-, -, rfl⟩ | ⟨-, v, -, ⟨-, rfl⟩ | rfl⟩ <;>
      exact Nat.le_refl _

theorem open_le {j : Nat} {v : Vowel} {f : EndConsClass} {m : Tone} {r : Rime} (h : Open ct w t j v f m r) :
    r.stop ≤ j + 2 := by
  obtain ⟨k, h, rfl⟩ := h
  exact skip_le h

theorem shut_le {j : Nat} {x : U16Str} {v : Vowel} {m : Tone} {r : Rime} (h : Shut ct w t j x v m r) : r.stop ≤ j + 4 := by
  obtain ⟨k, b, f, ⟨c, -, -, h⟩, rfl⟩ := h
  exact skipAny_le h

theorem shutX_le {j : Nat} {x : U16Str} {v : Vowel} {m : Tone} {r : Rime} (h : ShutX ct w t j x v m r) :
    r.stop ≤ j + 4 := by
  obtain ⟨k, b, f, ⟨c, -, ⟨-, h⟩ | ⟨-, ⟨-, rfl, -⟩ | ⟨-, rfl, -⟩⟩⟩, rfl⟩ := h
  · exact skipAny_le h
  · simp only; omega
  · simp only; omega

theorem signFinal_le {j : Nat} {v : Vowel} {m : Tone} {r : Rime} (h : SignFinal ct w t j v m r) : r.stop ≤ j + 4 := by
  obtain ⟨-, ⟨-, -, h⟩ | ⟨-, -, h⟩ | ⟨-, -, h⟩ | ⟨-, -, -, h⟩⟩ := h
  · have := open_le h; omega
  · exact shut_le h
  · exact shut_le h
  · exact shutX_le h

theorem consRime_le {o : Onset} {l : Bool} {r : Rime} (h : ConsRime ct w t o l r) : r.stop ≤ o.stop + 9 := by
  rcases h with h | h | h | h
  · obtain ⟨-, m, k, hm, h⟩ := h
    have := markAt_le hm
    rcases h with ⟨-, -, h⟩ | ⟨-, -, h⟩ | ⟨-, -, h⟩ | ⟨-, -, h⟩
    · have := open_le h; omega
    · have := open_le h; omega
    · have := shutX_le h; omega
    · have := shut_le h; omega
  · obtain ⟨c, v, m, k, -, -, -, hm, h⟩ := h
    have := markAt_le hm
    rcases h with ⟨-, -, h⟩ | ⟨-, ⟨-, rfl | h⟩ | ⟨-, -, rfl⟩ | ⟨-, -, rfl | h⟩⟩
    · have := signFinal_le h; omega
    · simp only; omega
    · have := signFinal_le h; omega
    · simp only; omega
    · simp only; omega
    · have := signFinal_le h; omega
  · obtain ⟨-, -, k, hk, h⟩ := h
    have := skip_le hk
    have := shut_le h
    omega
  · obtain ⟨m, k, hm, h⟩ := h
    have := markAt_le hm
    rcases h with ⟨-, h⟩ | ⟨-, h | ⟨k', hk, h⟩⟩ | ⟨-, h⟩ | ⟨-, h⟩ | ⟨-, h | ⟨k', hk, h⟩⟩ | h | ⟨-, -, -, h⟩ | ⟨v, c, -, -, -, -, rfl | h⟩
    · have := open_le h; omega
    · have := open_le h; omega
    · have := skip_le hk; have := shutX_le h; omega
    · have := open_le h; omega
    · have := shut_le h; omega
    · have := open_le h; omega
    · have := skip_le hk; have := shut_le h; omega
    · obtain ⟨-, ⟨-, h⟩ | ⟨k', hk, -, h⟩⟩ := h
      · have := open_le h; omega
      · have hk' : k' ≤ k + 3 := by
          split at hk
          · omega
          · exact skip_le hk
        rcases h with h | ⟨-, h⟩
        · have := open_le h; omega
        · have := shutX_le h; omega
    · have := shut_le h; omega
    · simp only; omega
    · have := shutX_le h; omega

theorem midRime_le {sign mid : Nat} {short long : Vowel} {j : Nat} {full : Bool} {r : Rime}
    (h : MidRime ct w t sign mid short long j full r) : r.stop ≤ j + 9 := by
  obtain ⟨-, m, k, hm, -, h⟩ := h
  have := markAt_le hm
  rcases h with ⟨-, h⟩ | ⟨-, h | ⟨k', hk, h⟩⟩
  · have := open_le h; omega
  · have := open_le h; omega
  · have := skip_le hk
    split at h
    · have := shutX_le h; omega
    · have := shut_le h; omega

theorem eRime_le {o : Onset} {r : Rime} (h : ERime ct w t o r) : r.stop ≤ o.stop + 9 := by
  rcases h with ⟨-, -, rfl⟩ | ⟨-, m, k, k', hm, hk, h⟩ | h | h | ⟨-, h⟩ | ⟨-, m, k, hm, h⟩
  · simp only; omega
  · have := markAt_le hm; have := skip_le hk; have := shut_le h; omega
  · exact midRime_le h
  · exact midRime_le h
  · have := shut_le h; omega
  · have := markAt_le hm
    rcases h with ⟨-, rfl⟩ | ⟨-, ⟨-, h⟩ | ⟨-, h⟩ | ⟨-, h⟩⟩ | ⟨-, -, h⟩ | ⟨-, ⟨-, h⟩ | ⟨-, h⟩⟩ | ⟨-, -, h⟩ | ⟨c, -, -, -, -, -, h | ⟨k', hk, h⟩⟩
    · simp only; omega
    · have := open_le h; omega
    · have := open_le h; omega
    · have := open_le h; omega
    · have := open_le h; omega
    · have := open_le h; omega
    · have := open_le h; omega
    · have := open_le h; omega
    · have := open_le h; omega
    · have := skip_le hk; have := shutX_le h; omega

theorem leadRime_le {v j : Nat} {r : Rime} (h : LeadRime ct w t v j r) : r.stop ≤ j + 9 := by
  obtain ⟨m, k, hm, h⟩ := h
  have := markAt_le hm
  rcases h with ⟨-, h⟩ | ⟨-, h⟩ | ⟨-, h⟩ | ⟨-, h⟩
  · rcases h with ⟨-, h⟩ | ⟨-, h⟩ | ⟨-, -, h | ⟨k', hk, h⟩⟩
    · have := open_le h; omega
    · have := shut_le h; omega
    · have := open_le h; omega
    · have := skip_le hk; have := shut_le h; omega
  · rcases h with ⟨-, ⟨-, rfl⟩ | ⟨-, k', hk, rfl⟩⟩ | ⟨-, ⟨-, rfl | h⟩ | ⟨-, -, rfl⟩ | ⟨-, -, rfl | h⟩⟩
    · simp only; omega
    · have := skipIU_le hk; simp only; omega
    · simp only; omega
    · have := shutX_le h; omega
    · simp only; omega
    · simp only; omega
    · have := shutX_le h; omega
  · rcases h with h | ⟨-, -, -, rfl⟩
    · have := open_le h; omega
    · simp only; omega
  · rcases h with h | ⟨-, -, -, rfl⟩
    · have := open_le h; omega
    · simp only; omega

theorem spelled_le {i : Nat} {l : Bool} {o : Onset} {r : Rime} (h : Spelled ct w t i l o r) : r.stop ≤ i + 12 := by
  obtain ⟨c, -, ⟨-, ⟨h1, -, h2⟩ | ⟨h, -⟩⟩ | ⟨-, -, h1, h2⟩ | ⟨-, -, h1, h2⟩ | ⟨-, -, h⟩⟩ := h
  · have := onsetAt_le h1; have := consRime_le h2; omega
  · obtain ⟨c, snd, cls, -, -, h⟩ := h
    rcases h with ⟨-, -, rfl⟩ | ⟨-, -, -, -, -, rfl⟩ | ⟨-, -, -, ⟨-, -, -, rfl⟩ | ⟨-, -, -, rfl⟩ | ⟨-, -, -, rfl⟩⟩ | ⟨-, -, -, rfl⟩
    all_goals simp only; omega
  · have := onsetAt_le h1; have := eRime_le h2; omega
  · have := onsetAt_le h1; have := leadRime_le h2; omega
  · rcases h with ⟨-, rfl⟩ | ⟨-, rfl⟩ | ⟨d, -, -, ⟨-, rfl⟩ | ⟨-, h⟩⟩
    · simp only; omega
    · simp only; omega
    · simp only; omega
    · have := shutX_le h; omega

/-! ## Letters before a node -/

/-- The number of Thai letters begun before the node `n`. -/
def upTo (ct : CType) (w : U16Str) (n : Int) : Nat := thaiIn ct (w.take (begun n).toNat)

theorem upTo_le {n m : Int} {N : Nat} (h : begun m ≤ begun n + N) : upTo ct w m ≤ upTo ct w n + N := by
  unfold upTo thaiIn
  have h1 : (w.take (begun m).toNat).countP (isThai ct) ≤ (w.take ((begun n).toNat + N)).countP (isThai ct) :=
    (List.take_prefix_take_left (by omega)).sublist.countP_le
  refine h1.trans ?_
  rw [List.take_add, List.countP_append]
  refine Nat.add_le_add_left ?_ _
  exact List.countP_le_length.trans (by simp)

theorem upTo_none {p q : Nat} (hpq : p ≤ q) (h : ∀ i, p ≤ i → i < q → ∀ c, w[i]? = some c → isThai ct c = false) :
    upTo ct w (q : Int) = upTo ct w (p : Int) := by
  unfold upTo thaiIn
  rw [begun_nat, begun_nat, Int.toNat_natCast, Int.toNat_natCast]
  obtain ⟨k, rfl⟩ := Nat.exists_eq_add_of_le hpq
  rw [List.take_add, List.countP_append, Nat.add_eq_left, List.countP_eq_zero]
  intro c hc
  obtain ⟨i, hi⟩ := List.mem_iff_getElem?.mp hc
  rw [List.getElem?_take] at hi
  split at hi
  · rw [List.getElem?_drop] at hi
    rw [h (p + i) (by omega) (by omega) c hi]
    simp
  · cases hi

theorem isThai_dot (hct : ct.Ok) : isThai ct ch!"." = false := by
  unfold isThai
  have h1 : ct.isCons ch!"." = false := by
    by_contra h; have := hct.cons _ (by simpa using h); revert this; decide
  have h2 : ct.isVowel ch!"." = false := by
    by_contra h; have := hct.vowel _ (by simpa using h); revert this; decide
  have h3 : ct.isTone ch!"." = false := by
    by_contra h; have := hct.tone _ (by simpa using h); revert this; decide
  rw [h1, h2, h3]
  decide

theorem not_thai {i : Nat} {c : Nat} (h : ¬ TextAt ct w i) (hc : w[i]? = some c) : isThai ct c = false := by
  by_contra hn
  refine h ⟨c, hc, ?_⟩
  rw [Bool.not_eq_false] at hn
  unfold isThai at hn
  simp only [Bool.or_eq_true, decide_eq_true_eq] at hn
  rcases hn with ((h | h) | h) | h
  · exact .inl h
  · exact .inr (.inl h)
  · exact .inr (.inr (.inl h))
  · refine .inr (.inr (.inr ?_))
    revert h
    simp only [List.mem_cons, List.not_mem_nil, or_false]
    rintro (h | h) <;> simp [h]

/-- The edge takes at most `N` letters. -/
def Few (ct : CType) (w : U16Str) (N : Nat) (e : Entry Syl) : Prop := upTo ct w e.target ≤ upTo ct w e.key + N

variable {N : Nat}

theorem few_word {p : Nat} {str : SylString} : ∀ {n m : Int}, begun n = begun m + p → Narrow N m str →
    ∀ e ∈ wordEdges p n str, Few ct w N e := by
  induction str with
  | nil => intro n m _ _ e he; cases he
  | cons s ss ih =>
    intro n m hn hp e he
    rcases List.mem_cons.mp he with rfl | he
    · refine upTo_le ?_
      simp only [begun_moved, hn]
      have := hp.1
      omega
    · exact ih (begun_moved _ _) hp.2 e he

theorem few_spelled (hN : 12 ≤ N) {p : Nat} {l : Bool} {o : Onset} {r : Rime} (h : Spelled ct w t p l o r) :
    ∀ e ∈ spelledEdges p o r, Few ct w N e := by
  intro e he
  have hle := spelled_le h
  unfold spelledEdges at he
  cases hp : o.pre with
  | none =>
    rw [hp, List.mem_singleton] at he
    subst he
    refine upTo_le ?_
    simp only [begun_nat]
    omega
  | some pre =>
    have hb := begun_span (spelled_two h (by rw [hp]; simp))
    rw [hp] at he
    simp only [List.mem_cons, List.not_mem_nil, or_false] at he
    rcases he with rfl | rfl
    · refine upTo_le ?_; simp only [begun_nat]; omega
    · refine upTo_le ?_; simp only [begun_nat]; omega

theorem few_abbr (hN : 12 ≤ N) {p q : Nat} {new : List (Entry Syl)} (ht : t ≤ w.length) (ha : IsAbbr ct w p t q)
    (h : AbbrNames w p q new) : ∀ e ∈ new, Few ct w N e := by
  intro e he
  have hpq : q ≤ p + 5 := by
    rcases ha.shape with ⟨n, h1, h2, -⟩ | ⟨h1, -⟩ <;> omega
  rcases h with ⟨-, rfl⟩ | ⟨-, cs, -, hl, h⟩
  · rw [List.mem_singleton] at he
    subst he
    refine upTo_le ?_
    simp only [begun_nat]
    omega
  · obtain ⟨i, hi, rfl⟩ := List.mem_iff_getElem.mp he
    obtain ⟨h1, h2, -⟩ := h i cs[i] new[i] (List.getElem?_eq_getElem (by omega)) (List.getElem?_eq_getElem hi)
    refine upTo_le ?_
    rw [h1, h2]
    split
    · simp only [begun_nat]; omega
    · simp only [begun_nat]; omega

theorem few_stretch (hct : ct.Ok) {p : Nat} (hp : w[p]? = some ch!".") {e : Entry Syl} (h : Few ct w N e) :
    Few ct w N (stretch p e) := by
  unfold stretch
  split
  · rename_i ht
    unfold Few at h ⊢
    rw [ht] at h
    have : upTo ct w ((p + 1 : Nat) : Int) = upTo ct w (p : Int) := by
      refine upTo_none (Nat.le_succ p) fun i h1 h2 c hc => ?_
      obtain rfl : i = p := by omega
      rw [hp] at hc
      cases hc
      exact isThai_dot hct
    push_cast at this
    simp only [this]
    exact h
  · exact h

theorem deriv_few (hct : ct.Ok) (hN : 12 ≤ N) (hp : NarrowLook N look) {c : Config} (h : RuleDeriv ct w look brk c) :
    ∀ e ∈ c.edges, Few ct w N e := by
  induction h with
  | refl => intro e he; cases he
  | tail _ h ih =>
    cases h with
    | other h =>
      intro e he
      rcases List.mem_append.mp he with he | he
      · exact ih e he
      · rw [List.mem_singleton] at he
        subst he
        refine (upTo_none h.1.le fun i h1 h2 c hc => not_thai (h.2.2.1 i h1 h2) hc).le.trans (Nat.le_add_right _ _)
    | word h1 h2 h3 h4 =>
      intro e he
      rcases List.mem_append.mp he with he | he
      · exact ih e he
      · exact few_word (m := 0) (by rw [begun_nat]; simp [begun]) (hp _ _ _ h2.2.2.1 h3 _ h4) e he
    | abbr h1 h2 h3 h4 =>
      intro e he
      rcases List.mem_append.mp he with he | he
      · exact ih e he
      · exact few_abbr hN h1.2.1 h3 h4 e he
    | syl h1 h2 h3 h4 =>
      intro e he
      rcases List.mem_append.mp he with he | he
      · exact ih e he
      · exact few_spelled hN h4 e he
    | dot h1 h2 h3 h4 =>
      intro e he
      obtain ⟨x, hx, rfl⟩ := List.mem_map.mp he
      exact few_stretch hct h4 (ih x hx)

/-! ## The widest syllable over and over -/

theorem times_length (k : Nat) : (widestTimes k).length = 12 * k := by
  unfold widestTimes
  induction k with
  | zero => rfl
  | succ k ih =>
    rw [List.replicate_succ, List.flatten_cons, List.length_append, ih]
    have : widest.length = 12 := rfl
    omega

theorem times_get {k i j c : Nat} (hi : i < k) (h : widest[j]? = some c) : (widestTimes k)[12 * i + j]? = some c := by
  have hj : j < 12 := (List.getElem?_eq_some_iff.mp h).1
  unfold widestTimes
  induction k generalizing i with
  | zero => omega
  | succ k ih =>
    rw [List.replicate_succ, List.flatten_cons]
    cases i with
    | zero => rw [Nat.mul_zero, Nat.zero_add, List.getElem?_append_left (by exact hj)]; exact h
    | succ i =>
      have : widest.length = 12 := rfl
      rw [List.getElem?_append_right (by omega), this, show 12 * (i + 1) + j - 12 = 12 * i + j by omega]
      exact ih (by omega)

theorem times_at {k i j c : Nat} (hi : i < k) (h : widest[j]? = some c) :
    At (widestTimes k) (12 * k) (12 * i + j) c := by
  have hj : j < 12 := (List.getElem?_eq_some_iff.mp h).1
  exact ⟨by omega, times_get hi h⟩

theorem at_not {p c d : Nat} (h : At w t p c) (hne : c ≠ d) : ¬ At w t p d := by
  rintro ⟨-, h'⟩
  rw [h.2] at h'
  cases h'
  exact hne rfl

def wideOnset (i : Nat) : Onset := ⟨12 * i + 3, none, .KA, .MID, SC.RA, none⟩
def wideRime (i : Nat) : Rime := ⟨12 * i + 12, false, VW.IAA, .KOK, .THO⟩

theorem times_spelled {k i : Nat} (hi : i < k) :
    Spelled thaiCType (widestTimes k) (12 * k) (12 * i) false (wideOnset i) (wideRime i) := by
  have A : ∀ j c, widest[j]? = some c → At (widestTimes k) (12 * k) (12 * i + j) c := fun j c h => times_at hi h
  have hs : Silent thaiCType (widestTimes k) (12 * k) (12 * i + 6) := ⟨_, A 6 _ rfl, by decide, A 7 _ rfl⟩
  refine ⟨ch!"เ", times_get (j := 0) hi rfl, .inr (.inl ⟨rfl, by omega, ?_, ?_⟩)⟩
  · refine ⟨ch!"ก", .KA, .MID, times_get (j := 1) hi rfl, ⟨by decide, by decide, by decide⟩, .inr (.inl
      ⟨ch!"ร", .RA, .LOWS, A 2 _ rfl, ⟨by decide, by decide, by decide⟩, fun h => at_not (A 3 _ rfl) (by decide) h.2, .inl
        ⟨u!"กขคดตทบปพฟ", SC.RA, by decide, by decide, (fun h => nomatch h), rfl⟩⟩)⟩
  · refine .inr (.inr (.inl ⟨A 3 _ rfl, .THO, 12 * i + 5, .inl ⟨_, A 4 _ rfl, by decide, by decide, rfl⟩, A 5 _ rfl,
      .inr ⟨at_not (A 6 _ rfl) (by decide), .inr ⟨12 * i + 8, .inl ⟨hs, rfl⟩, ?_⟩⟩⟩))
    rw [if_pos rfl]
    refine ⟨12 * i + 12, false, .KOK, ⟨ch!"ก", ⟨A 8 _ rfl, by decide, by decide, by decide, by decide⟩, .inl ⟨rfl, .inr (.inl
      ⟨?_, ⟨_, _, A 9 _ rfl, by decide, A 10 _ rfl, .inr (.inr rfl), A 11 _ rfl⟩, rfl⟩)⟩⟩, rfl⟩
    rintro ⟨c, -, -, h⟩
    exact at_not (A 10 _ rfl) (by decide) h

theorem times_mod {k n : Nat} (h : n < 12 * k) : ∃ c ∈ widest, (widestTimes k)[n]? = some c := by
  have hj : n % 12 < widest.length := Nat.mod_lt _ (by decide)
  refine ⟨widest[n % 12], List.getElem_mem hj, ?_⟩
  have := times_get (k := k) (i := n / 12) (j := n % 12) (by omega) (List.getElem?_eq_getElem hj)
  rwa [Nat.div_add_mod] at this

theorem times_token {k p : Nat} (h : p < 12 * k) : TokenTo thaiCType (widestTimes k) [] p (12 * k) := by
  refine ⟨h, (times_length k).ge, fun i _ h2 => ?_, ?_, .inl ?_⟩
  · obtain ⟨c, hc, hg⟩ := times_mod h2
    refine ⟨c, hg, ?_⟩
    clear hg
    revert c
    decide
  · simp [nextBreak, times_length]
  · simp [nextBreak, times_length]

theorem times_rule {k i : Nat} (hi : i < k) (es : List (Entry Syl)) :
    Rule thaiCType (widestTimes k) (fun _ => none) [] ⟨12 * i, false, es⟩
      ⟨12 * (i + 1), false, es ++ [⟨(12 * i : Nat), (12 * i + 12 : Nat), spoken (wideOnset i) (wideRime i)⟩]⟩ := by
  refine Rule.syl (times_token (by omega)) (fun q data h => by cases h.2.2.1) ?_ (times_spelled hi)
  intro q hq
  have h0 : (widestTimes k)[12 * i]? = some ch!"เ" := times_get (j := 0) hi rfl
  rcases hq.shape with ⟨n, -, -, h1, h2⟩ | ⟨-, -, c, hc, h1⟩
  · cases n with
    | zero => rw [Nat.add_zero, h0] at h2; revert h2; decide
    | succ n =>
      obtain ⟨c, hc, h1⟩ := h1 (12 * i) (Nat.le_refl _) (by omega)
      rw [h0] at hc; cases hc; revert h1; decide
  · rw [h0] at hc; cases hc; revert h1; decide

theorem times_deriv (k : Nat) : ∀ i ≤ k, ∃ es, es.length = i ∧
    RuleDeriv thaiCType (widestTimes k) (fun _ => none) [] ⟨12 * i, false, es⟩ := by
  intro i
  induction i with
  | zero => exact fun _ => ⟨[], rfl, .refl⟩
  | succ i ih =>
    intro hi
    obtain ⟨es, h1, h2⟩ := ih (by omega)
    exact ⟨_, by simp [h1], h2.tail (times_rule (by omega) es)⟩

end Wide

end Thpronun
