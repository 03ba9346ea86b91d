import Verif.Lemmas.Work

/-! # An upper bound for the work of the parser: helper lemmas for C57 -/

namespace Thpronun
open Res Spec

section
variable {ct : CType} {w : U16Str} {brk : List Int}

/-- At most `k` elements, if anything is returned. -/
structure Few {α} (k : Nat) (r : Res (List α)) : Prop where
  le : ∀ l, r = .ok l → l.length ≤ k

theorem few_ok {α} {k : Nat} {l : List α} (h : l.length ≤ k) : Few k (.ok l) := by
  constructor
  rintro _ ⟨⟩; exact h

theorem few_pure {α} {k : Nat} {l : List α} (h : l.length ≤ k) : Few k (pure l) := few_ok h

theorem few_pure_bind {α β} {k : Nat} {b : β} {f : β → Res (List α)} (h : Few k (f b)) : Few k ((pure b : Res β) >>= f) := h

theorem few_bind {α β} {k : Nat} {r : Res β} {f : β → Res (List α)} (h : ∀ b, Few k (f b)) : Few k (r >>= f) := by
  constructor
  intro l hl
  obtain ⟨b, -, hb⟩ := bind_eq_ok.mp hl
  exact (h b).le l hb

theorem few_app {α β} {j k : Nat} {r : Res (List β)} {f : List β → Res (List α)} (hr : Few j r)
    (h : ∀ b, b.length ≤ j → Few k (f b)) : Few k (r >>= f) := by
  constructor
  intro l hl
  obtain ⟨b, h1, hb⟩ := bind_eq_ok.mp hl
  exact (h b (hr.le b h1)).le l hb

theorem few_mono {α} {j k : Nat} {r : Res (List α)} (h : Few j r) (hjk : j ≤ k) : Few k r :=
  ⟨fun l hl => (h.le l hl).trans hjk⟩

theorem few_karan {α} {k : Nat} {stop : Nat} {p : PartialSyl} {f : PartialSyl × List Emit → Res (List α)}
    (h : ∀ q e, Few k (f (q, [e]))) : Few k (karanEmit ct w stop p >>= f) := by
  constructor
  intro l hl
  obtain ⟨b, h1, hb⟩ := bind_eq_ok.mp hl
  unfold karanEmit at h1
  obtain ⟨b', h1, h2⟩ := bind_eq_ok.mp h1
  cases h2
  exact (h _ _).le l hb

theorem few_concat {α β} {j : Nat} {f : α → Res (List β)} (h : ∀ a, Few j (f a)) : ∀ (k : Nat) (l : List α), l.length ≤ k →
    Few (k * j) (concatRes f l)
  | _, [], _ => few_ok (by simp)
  | 0, a :: l, hl => by simp at hl
  | k + 1, a :: l, hl => by
    unfold concatRes
    refine few_app (h a) fun b hb => few_app (few_concat h k l (by simpa using hl)) fun bs hbs => few_pure ?_
    rw [List.length_append, Nat.succ_mul]
    omega

theorem few_ite {α} {k : Nat} {c : Prop} [Decidable c] {a b : Res (List α)} (ha : Few k a) (hb : Few k b) :
    Few k (if c then a else b) := by
  split
  · exact ha
  · exact hb

local macro "few_step" : tactic => `(tactic| first
  | ((with_reducible refine few_pure ?_); simp only [List.length_append, List.length_cons, List.length_nil, apply_ite List.length]; (try split) <;> omega)
  | ((with_reducible refine few_ok ?_); simp only [List.length_append, List.length_cons, List.length_nil, apply_ite List.length]; (try split) <;> omega)
  | (with_reducible refine few_pure_bind ?_)
  | (with_reducible refine few_karan fun _ _ => ?_)
  | (with_reducible refine few_bind fun _ => ?_)
  | (with_reducible refine few_ite ?_ ?_)
  | split)

theorem few_clusterRo (pos stop : Nat) (linked : Bool) (first : U16) (snd cls) :
    Few 1 (clusterRo w pos stop linked first snd cls) := by
  unfold clusterRo
  repeat' few_step

theorem few_auraRo (pos stop : Nat) (first : U16) (snd cls) : Few 1 (auraRo ct w pos stop first snd cls) := by
  unfold auraRo
  try simp only
  repeat' few_step

theorem few_clusters (pos stop : Nat) (linked : Bool) (first sec : U16) (snd cls) :
    Few 2 (clusters ct w pos stop linked first sec snd cls) := by
  unfold clusters
  split
  · exact few_app (few_clusterRo ..) fun a ha => few_app (few_auraRo ..) fun b hb => few_pure (by simp; omega)
  · repeat' few_step

theorem few_twoCons (pos stop : Nat) (linked : Bool) (first sec : U16) (snd cls) :
    Few 5 (twoCons ct w pos stop linked first sec snd cls) := by
  unfold twoCons
  try simp only
  refine few_bind fun _ => few_bind fun _ => few_app (few_clusters ..) fun a ha => ?_
  repeat' few_step

theorem few_consRu (pos stop : Nat) (first : U16) (snd cls) : Few 5 (consRu ct w pos stop first snd cls) := by
  unfold consRu
  try simp only
  repeat' few_step

theorem few_matchInitCons (pos stop : Nat) (linked : Bool) : Few 7 (matchInitCons ct w pos stop linked) := by
  unfold matchInitCons
  try simp only
  repeat' first
    | (with_reducible refine few_app (few_twoCons ..) fun _ _ => ?_)
    | (with_reducible refine few_app (few_consRu ..) fun _ _ => ?_)
    | few_step

theorem few_simple (stop : Nat) (p : PartialSyl) (excl : List U16) : Few 1 (eatEndConsSimple ct w stop p excl) := by
  unfold eatEndConsSimple
  try simp only
  repeat' few_step

theorem few_linkPart (stop : Nat) (p : PartialSyl) (e : U16) : Few 2 (linkPart ct w stop p e) := by
  unfold linkPart
  try simp only
  repeat' few_step

theorem few_complex (stop : Nat) (p : PartialSyl) (excl : List U16) : Few 3 (eatEndConsComplex ct w stop p excl) := by
  unfold eatEndConsComplex
  refine few_bind fun _ => few_bind fun r => ?_
  cases r with
  | none => exact few_pure (by simp)
  | some e =>
    refine few_bind fun _ => ?_
    simp only
    split
    · exact few_pure (by simp)
    · exact few_app (few_linkPart ..) fun b hb => few_pure (by simp; omega)

local macro "few_end" : tactic => `(tactic| first
  | (with_reducible exact few_mono (few_simple ..) (by decide))
  | (with_reducible exact few_mono (few_complex ..) (by decide))
  | (with_reducible refine few_app (few_simple ..) fun _ _ => ?_)
  | (with_reducible refine few_app (few_complex ..) fun _ _ => ?_)
  | few_step)

theorem few_hanAkat (stop : Nat) (p : PartialSyl) : Few 3 (hanAkat ct w stop p) := by
  unfold hanAkat
  try simp only
  repeat' few_end

theorem few_upBlEnd (stop : Nat) (p : PartialSyl) : Few 3 (upBlEnd ct w stop p) := by
  unfold upBlEnd
  try simp only
  repeat' few_end

theorem few_upBlVowel (stop : Nat) (p : PartialSyl) (c : U16) : Few 4 (upBlVowel ct w stop p c) := by
  unfold upBlVowel
  try simp only
  repeat' first
    | (with_reducible exact few_mono (few_upBlEnd ..) (by decide))
    | (with_reducible refine few_app (few_upBlEnd ..) fun _ _ => ?_)
    | few_end

theorem few_maitaikhuO (stop : Nat) (p : PartialSyl) : Few 1 (maitaikhuO ct w stop p) := by
  unfold maitaikhuO
  try simp only
  repeat' few_end

theorem few_roRua (stop : Nat) (p : PartialSyl) : Few 5 (roRua ct w stop p) := by
  unfold roRua
  try simp only
  repeat' few_end

theorem few_consCons (stop : Nat) (linked : Bool) (p : PartialSyl) (c : U16) : Few 4 (consCons ct w stop linked p c) := by
  unfold consCons
  try simp only
  repeat' few_end

theorem few_plainCons (stop : Nat) (linked : Bool) (p : PartialSyl) (c : U16) : Few 5 (plainCons ct w stop linked p c) := by
  unfold plainCons
  try simp only
  repeat' first
    | (with_reducible exact few_roRua ..)
    | (with_reducible exact few_mono (few_consCons ..) (by decide))
    | few_end

theorem few_thConsOne (stop : Nat) (linked : Bool) (p : PartialSyl) : Few 5 (thConsOne ct w stop linked p) := by
  unfold thConsOne
  try simp only
  repeat' first
    | (with_reducible exact few_plainCons ..)
    | (with_reducible exact few_mono (few_hanAkat ..) (by decide))
    | (with_reducible exact few_mono (few_upBlVowel ..) (by decide))
    | (with_reducible exact few_mono (few_maitaikhuO ..) (by decide))
    | few_step

theorem few_saraEI (stop : Nat) (p : PartialSyl) : Few 1 (saraEI ct w stop p) := by
  unfold saraEI
  try simp only
  repeat' few_end

theorem few_saraEMid (stop : Nat) (mid : U16) (vs vl : Vowel) (b : Bool) (p : PartialSyl) :
    Few 4 (saraEMid ct w stop mid vs vl b p) := by
  unfold saraEMid
  try simp only
  repeat' few_end

theorem few_saraEPlain (stop : Nat) (p : PartialSyl) : Few 4 (saraEPlain ct w stop p) := by
  unfold saraEPlain
  try simp only
  repeat' few_end

theorem few_saraERest (stop : Nat) (p : PartialSyl) (c : U16) : Few 4 (saraERest ct w stop p c) := by
  unfold saraERest
  try simp only
  repeat' first
    | (with_reducible exact few_saraEPlain ..)
    | few_step

theorem few_saraEOne (stop : Nat) (p : PartialSyl) : Few 4 (saraEOne ct w stop p) := by
  unfold saraEOne
  try simp only
  repeat' first
    | (with_reducible exact few_saraEMid ..)
    | (with_reducible exact few_saraERest ..)
    | (with_reducible exact few_mono (few_saraEI ..) (by decide))
    | few_end

theorem few_saraAe (stop : Nat) (p : PartialSyl) : Few 4 (saraAe ct w stop p) := by
  unfold saraAe
  try simp only
  repeat' few_end

theorem few_saraO (stop : Nat) (p : PartialSyl) : Few 4 (saraO ct w stop p) := by
  unfold saraO
  try simp only
  repeat' few_end

theorem few_saraAiMalai (stop : Nat) (p : PartialSyl) : Few 4 (saraAiMalai ct w stop p) := by
  unfold saraAiMalai
  try simp only
  repeat' few_step

theorem few_otherLVOne (stop : Nat) (ldv : U16) (p : PartialSyl) : Few 4 (otherLVOne ct w stop ldv p) := by
  unfold otherLVOne
  try simp only
  repeat' first
    | (with_reducible exact few_saraAe ..)
    | (with_reducible exact few_saraO ..)
    | (with_reducible exact few_saraAiMalai ..)
    | few_step

theorem few_parseRuLu (pos stop : Nat) : Few 3 (parseRuLu ct w pos stop) := by
  unfold parseRuLu
  try simp only
  repeat' few_end

theorem few_grammar (pos stop : Nat) (linked : Bool) (c : U16) : Few 35 (grammar ct w pos stop linked c) := by
  unfold grammar
  split
  · unfold parseThCons
    exact few_app (few_matchInitCons ..) fun a ha => few_concat (fun _ => few_thConsOne ..) 7 a ha
  split
  · unfold parseSaraE
    split
    · exact few_ok (by simp)
    exact few_app (few_matchInitCons ..) fun a ha => few_mono (few_concat (fun _ => few_saraEOne ..) 7 a ha) (by decide)
  split
  · unfold parseOtherLV
    exact few_bind fun _ => few_app (few_matchInitCons ..) fun a ha => few_mono (few_concat (fun _ => few_otherLVOne ..) 7 a ha) (by decide)
  split
  · exact few_mono (few_parseRuLu ..) (by decide)
  · exact few_pure (by simp)

/-! ## Weights -/

/-- The turns that a state can cost. -/
def cost (w : U16Str) (s : PState) : Nat := 2 * 36 ^ (w.length - s.pos) - if s.pos < s.stop then 1 else 0

def costs (w : U16Str) (l : List PState) : Nat := (l.map (cost w)).sum

theorem pow_pos36 (k : Nat) : 1 ≤ 36 ^ k := Nat.one_le_pow _ _ (by decide)

theorem cost_pos (s : PState) : 1 ≤ cost w s := by
  have := pow_pos36 (w.length - s.pos)
  unfold cost
  split <;> omega

theorem cost_le (s : PState) : cost w s ≤ 2 * 36 ^ (w.length - s.pos) := Nat.sub_le _ _

theorem costs_add (l : StatePool) (s : PState) : costs w (StatePool.add l s) ≤ costs w l + cost w s := by
  induction l with
  | nil => simp [costs, StatePool.add]
  | cons a l ih =>
    rw [StatePool.add]
    split
    · simp [costs, cost]
    · split
      · simp [costs]; omega
      · simp only [costs, List.map_cons, List.sum_cons] at ih ⊢
        omega

theorem costs_fold (ss : List PState) : ∀ l : StatePool, costs w (ss.foldl StatePool.add l) ≤ costs w l + costs w ss := by
  induction ss with
  | nil => intro l; simp [costs]
  | cons s ss ih =>
    intro l
    have h1 := ih (StatePool.add l s)
    have h2 := costs_add (w := w) l s
    simp only [costs, List.map_cons, List.sum_cons, List.foldl_cons] at h1 h2 ⊢
    omega

theorem cost_meas {s s' : PState} (h : meas w s' < meas w s) (hs : s.pos ≤ w.length) (hs' : s'.pos ≤ w.length) :
    cost w s' + 1 ≤ cost w s := by
  unfold meas at h
  by_cases hp : s'.pos = s.pos
  · unfold cost
    rw [hp] at h ⊢
    have := pow_pos36 (w.length - s.pos)
    split at h <;> split at h
    all_goals first | omega | skip
    rw [if_pos ‹_›, if_neg ‹_›]
    omega
  · have hlt : w.length - s'.pos + 1 ≤ w.length - s.pos := by split at h <;> split at h <;> omega
    have h1 := cost_le (w := w) s'
    have h2 : 36 ^ (w.length - s'.pos + 1) ≤ 36 ^ (w.length - s.pos) := Nat.pow_le_pow_right (by decide) hlt
    have := pow_pos36 (w.length - s'.pos)
    rw [Nat.pow_succ] at h2
    unfold cost at h1 ⊢
    split <;> split <;> split at h1 <;> omega

/-- Few states behind a state cost less. -/
theorem costs_few {s : PState} (hs : s.pos < s.stop) (hp : s.pos < w.length) {ss : List PState} (hl : ss.length ≤ 35)
    (h : ∀ x ∈ ss, s.pos < x.pos) : costs w ss + 1 ≤ cost w s := by
  have h1 : costs w ss ≤ ss.length * (2 * 36 ^ (w.length - s.pos - 1)) := by
    clear hl
    induction ss with
    | nil => simp [costs]
    | cons a ss ih =>
      have h1 := ih fun x hx => h x (by simp [hx])
      have h2 := cost_le (w := w) a
      have h3 : 36 ^ (w.length - a.pos) ≤ 36 ^ (w.length - s.pos - 1) :=
        Nat.pow_le_pow_right (by decide) (by have := h a (by simp); omega)
      rw [List.length_cons, Nat.succ_mul]
      simp only [costs, List.map_cons, List.sum_cons] at h1 ⊢
      omega
  have h2 : ss.length * (2 * 36 ^ (w.length - s.pos - 1)) ≤ 35 * (2 * 36 ^ (w.length - s.pos - 1)) := Nat.mul_le_mul_right _ hl
  have h3 : 36 ^ (w.length - s.pos) = 36 * 36 ^ (w.length - s.pos - 1) := by
    rw [← Nat.pow_succ']
    congr 1; omega
  have := pow_pos36 (w.length - s.pos - 1)
  unfold cost
  rw [if_pos hs, h3]
  omega

theorem exceptLoop_costs {s : PState} (hst : s.stop ≤ w.length) : ∀ (fuel : Nat) (m : Match) {ex},
    exceptLoop ct w s fuel m = .ok ex → m.word = w → m.curPos ≤ w.length → costs w ex + 2 ≤ 2 * 36 ^ (w.length - m.curPos)
  | 0, _, _, h, _, _ => by cases h
  | fuel + 1, m, ex, h, hm, hc => by
    cases hb : m.findNext with
    | mk m' b =>
    cases b with
    | false =>
      rw [exceptLoop, hb] at h
      cases h
      have := pow_pos36 (w.length - m.curPos)
      simp [costs]; omega
    | true =>
      rw [exceptLoop_succ s fuel m m' hb] at h
      obtain ⟨p1, p2, p3⟩ : m.curPos < m'.curPos ∧ m'.curPos ≤ w.length ∧ m'.word = w := by
        have := findNext_pos m (by rw [hb]) (by rw [hm]; exact hc)
        rw [hb, hm] at this
        exact this
      have ih := @exceptLoop_costs s hst fuel m'
      have hpow : 36 * 36 ^ (w.length - m'.curPos) ≤ 36 ^ (w.length - m.curPos) := by
        rw [← Nat.pow_succ']
        exact Nat.pow_le_pow_right (by decide) (by omega)
      have := pow_pos36 (w.length - m'.curPos)
      split at h
      · have := ih h p3 p2; omega
      · obtain ⟨skip, -, h⟩ := bind_eq_ok.mp h
        split at h
        · have := ih h p3 p2; omega
        · obtain ⟨data, -, h⟩ := bind_eq_ok.mp h
          obtain ⟨strs, -, h⟩ := bind_eq_ok.mp h
          obtain ⟨rest, h1, h⟩ := bind_eq_ok.mp h
          cases h
          have h2 := ih h1 p3 p2
          have h3 := cost_le (w := w) ⟨m'.getCurPos, s.stop, exceptDag s strs, false⟩
          simp only [costs, List.map_cons, List.sum_cons, Match.getCurPos] at h2 h3 ⊢
          omega

theorem expand_costs (hct : ct.Ok) {dict : Option Dict} {s : PState} (hs : SOK ct w brk s) (hp : s.pos < w.length) {ss}
    (h : expand ct w dict brk s = .ok ss) : costs w ss + 1 ≤ cost w s := by
  have ht := expand_term hct dict hs hp
  rw [h] at ht
  have ht : ∀ s' ∈ ss, SOK ct w brk s' ∧ meas w s' < meas w s := ht
  have hone : ∀ x, ss = [x] → costs w ss + 1 ≤ cost w s := by
    rintro x rfl
    have := ht x (by simp)
    simpa [costs] using cost_meas this.2 hs.pos this.1.pos
  unfold expand at h
  split at h
  · obtain ⟨s', h1, h⟩ := bind_eq_ok.mp h
    cases h
    exact hone _ rfl
  · have hst := hs.stop (by omega)
    unfold tokenStates at h
    obtain ⟨ex, h1, h⟩ := bind_eq_ok.mp h
    split at h
    · cases h
      unfold exceptions at h1
      split at h1
      · have := exceptLoop_costs hst.le _ _ h1 rfl hs.pos
        have h2 : 2 * 36 ^ (w.length - s.pos) = cost w s + 1 := by
          have := pow_pos36 (w.length - s.pos)
          unfold cost
          rw [if_pos hst.lt]
          omega
        simp only [Match.new] at this
        omega
      · cases h1
        simp at *
    · obtain ⟨r, h2, h⟩ := bind_eq_ok.mp h
      cases r with
      | some s' => cases h; exact hone _ rfl
      | none =>
        refine costs_few hst.lt hp ?_ fun x hx => ?_
        · simp only [charStates] at h
          obtain ⟨c, -, h⟩ := bind_eq_ok.mp h
          split at h
          · obtain ⟨d, -, h⟩ := bind_eq_ok.mp h
            cases h
            simp
          · obtain ⟨ems, hg, h⟩ := bind_eq_ok.mp h
            cases h
            rw [List.length_map]
            exact (few_grammar ..).le _ hg
        · have := (ht x hx).2
          have h3 := (ht x hx).1.pos
          unfold meas at this
          rw [if_pos hst.lt] at this
          split at this <;> omega

theorem loop_upper (hct : ct.Ok) (dict : Option Dict) (N : Nat) : ∀ (pool : StatePool) (acc : PronunDAG),
    (∀ s ∈ pool, SOK ct w brk s) → costs w pool ≤ N →
      iterLoop (parseStep ct w dict brk) (N + 1) (pool, acc) ≠ .diverge := by
  induction N with
  | zero =>
    intro pool acc _ h
    cases pool with
    | nil => unfold iterLoop; simp [parseStep]
    | cons s l => have := cost_pos (w := w) s; simp [costs] at h; omega
  | succ N ih =>
    intro pool acc hs hm
    cases pool with
    | nil => unfold iterLoop; simp [parseStep]
    | cons s pool =>
      have h1 := cost_pos (w := w) s
      have h2 : costs w (s :: pool) = cost w s + costs w pool := rfl
      rw [iterLoop, parseStep_cons hct]
      by_cases hlen : s.pos ≥ w.length
      · rw [if_pos hlen]
        exact ih pool _ (fun x hx => hs x (by simp [hx])) (by omega)
      · rw [if_neg hlen]
        have ht := expand_term hct dict (hs s (by simp)) (by omega)
        cases hx : expand ct w dict brk s with
        | throw e => simp
        | ub => simp
        | diverge => rw [hx] at ht; exact absurd ht (by simp [Res.Term])
        | ok ss =>
          rw [hx] at ht
          have ht : ∀ s' ∈ ss, SOK ct w brk s' ∧ meas w s' < meas w s := ht
          have h3 := expand_costs hct (hs s (by simp)) (by omega) hx
          have h4 := costs_fold (w := w) ss pool
          rw [ok_bind]
          exact ih _ _ (pool_forall (fun _ _ h1 h2 _ _ => sok_merge h1 h2) ss pool (fun x hx => hs x (by simp [hx]))
              fun x hx => (ht x hx).1) (by omega)

theorem parse_upper (hct : ct.Ok) (dict : Option Dict) : parseU16Fuel ct w (2 * 36 ^ w.length + 1) dict brk ≠ .diverge := by
  unfold parseU16Fuel
  cases h : parseInit ct w brk with
  | throw e => simp
  | ub => simp
  | diverge =>
    exfalso
    unfold parseInit at h
    have := refresh_term (ct := ct) (w := w) (brk := brk) ⟨0, 0, DAG.empty, false⟩
    cases hr : refresh ct w brk ⟨0, 0, DAG.empty, false⟩ with
    | ok s => rw [hr] at h; cases h
    | throw e => rw [hr] at h; cases h
    | ub => rw [hr] at h; cases h
    | diverge => rw [hr] at this; exact this
  | ok pool =>
    rw [ok_bind]
    refine loop_upper hct dict _ _ _ (parseInit_sok hct h) ?_
    unfold parseInit at h
    obtain ⟨s, hr, h⟩ := bind_eq_ok.mp h
    cases h
    have h1 := cost_le (w := w) s
    have h2 : 36 ^ (w.length - s.pos) ≤ 36 ^ w.length := Nat.pow_le_pow_right (by decide) (by omega)
    simp only [costs, StatePool.add, List.map_cons, List.map_nil, List.sum_cons, List.sum_nil]
    omega

end
end Thpronun
