import Verif.Lemmas.Size
import Verif.Props.Concat
import Verif.Props.Work
import Verif.Lemmas.Again
import Mathlib.Data.Finset.Powerset
import Mathlib.Data.List.Dedup

/-! # C75 and C76: the size of the result -/

namespace Thpronun
open Res Spec

variable {ct : CType} {p : Parser} {word : Str} {w : U16Str} {look : List Nat → Option Str} {d : PronunDAG}

/-- No word of the dictionary has more than `B` syllables in all its readings together. -/
def Spec.WordsWithin (look : List Nat → Option Str) (B : Nat) : Prop :=
  ∀ v data strs, look v = some data → DataIs data strs → (strs.map List.length).sum ≤ B

/-! ## C75: the size of the DAG -/

/-- Any list of different edges of the result of parsing a word of `n` characters has at most `2 * n * (145 + n * B)`
members. -/
theorem C75_edges (hct : ct.Ok) (hw : fromBytes word = .ok w) (hd : Holds p.exceptDict look) {B : Nat}
    (hB : WordsWithin look B) (h : p.parseWord ct word = .ok d) (l : List (Entry Syl))
    (hl : l.Pairwise fun a b => ¬ (a.key = b.key ∧ a.target = b.target ∧ ceq a.val b.val = true))
    (he : ∀ e ∈ l, Edge d e.key e.target e.val) : l.length ≤ 2 * w.length * (145 + w.length * B) := by
  rw [C37_word p word w hw] at h
  exact parse_size hct hd (fun v data strs h1 h2 => hB v data strs h1 ((makeSylStrings_iff _ _).mp h2)) h hl he

/-- So the space taken by the result is at most quadratic in the length of the word, and linear without dictionary. -/
theorem C75_space (hct : ct.Ok) (hw : fromBytes word = .ok w) (hd : Holds p.exceptDict look) {B : Nat}
    (hB : WordsWithin look B) (h : p.parseWord ct word = .ok d) :
    d.mFrom.length ≤ 2 * w.length * (145 + w.length * B) ∧ d.mTo.length = d.mFrom.length := by
  have hc : DAG.Coh d := by
    rw [C37_word p word w hw] at h
    exact (parseU16_correct hct hd h).1.coh
  refine ⟨C75_edges hct hw hd hB h d.mFrom hc.distinct fun e he => ?_, ?_⟩
  · refine ⟨e, ?_, rfl, LawfulCppEq.refl _⟩
    unfold DAG.outEdges DAG.equalRange
    simpa using he
  · have := hc.perm.length_eq
    rwa [List.length_map] at this

theorem C75_linear (hct : ct.Ok) (hw : fromBytes word = .ok w) (hd : p.exceptDict = none) (h : p.parseWord ct word = .ok d) :
    d.mFrom.length ≤ 290 * w.length := by
  have := (C75_space (look := fun _ => none) (B := 0) hct hw (by rw [hd]; intro v; rfl) (fun v data strs h => by cases h) h).1
  rw [Nat.mul_zero, Nat.add_zero, Nat.mul_right_comm] at this
  exact this

/-- The data that is shipped: at most 4 syllables per word. -/
theorem C75_data : WordsWithin (lastData exceptEntries) 4 := by
  intro v data strs hl hdata
  unfold lastData at hl
  obtain ⟨e, he, rfl⟩ := Option.map_eq_some_iff.mp hl
  have key : ∀ e ∈ exceptEntries, (match SylString.makeSylStrings e.data with
      | .ok strs => decide ((strs.map List.length).sum ≤ 4)
      | _ => true) = true := by decide +kernel
  have := key e (List.mem_reverse.mp (List.mem_of_find?_eq_some he))
  rw [(makeSylStrings_iff _ _).mpr hdata] at this
  exact of_decide_eq_true this

/-! ## C76: the number of pronunciations -/

/-- ราคา ราคา … ราคา -/
def Spec.prices : Nat → Str
  | 0 => b!"ราคา"
  | n + 1 => b!"ราคา" ++ b!" " ++ prices n

def Spec.prices16 : Nat → U16Str
  | 0 => u!"ราคา"
  | n + 1 => u!"ราคา" ++ u!" " ++ prices16 n

theorem prices_16 : ∀ n, fromBytes (prices n) = .ok (prices16 n)
  | 0 => by decide +kernel
  | n + 1 => fromBytes_append (fromBytes_append (by decide +kernel) (by decide +kernel)) (prices_16 n)

theorem prices_length : ∀ n, (prices16 n).length = 5 * n + 4
  | 0 => rfl
  | n + 1 => by
    unfold prices16
    rw [List.length_append, prices_length n]
    simp only [List.length_append, List.length_cons, List.length_nil]
    omega

/-- A text of `5 * n + 4` characters for which `2 ^ (n + 1)` pronunciations are listed, all printed differently. -/
theorem C76_exp (n : Nat) : (prices16 n).length = 5 * n + 4 ∧ fromBytes (prices n) = .ok (prices16 n) ∧
    ∃ d ss, (Parser.new (fun _ => []) false).parseWord thaiCType (prices n) = .ok d ∧ PronunDAG.sylStrings d 0 = .ok ss ∧
      ss.length = 2 ^ (n + 1) ∧ (ss.map fun q => joinWith ch!"-" (q.map (textOf romanSyl))).Nodup := by
  refine ⟨prices_length n, prices_16 n, ?_⟩
  obtain ⟨d1, l1, h1, k1, q1⟩ := lists_spec (n := 60) (w := u!"ราคา")
    (Q := fun l => (l.map fun q => joinWith ch!"-" (q.map (textOf romanSyl))) == [b!"rak-kha", b!"ra-kha"]) (by decide +kernel)
  have q1 := beq_iff_eq.mp q1
  have h0 : (Parser.new (fun _ => []) false).parseWord thaiCType b!"ราคา" = .ok d1 := h1
  induction n with
  | zero =>
    refine ⟨d1, l1, h0, k1, ?_, ?_⟩
    · have := congrArg List.length q1
      rwa [List.length_map] at this
    · rw [q1]; decide
  | succ n ih =>
    obtain ⟨d2, s2, h2, k2, k3, k4⟩ := ih
    have hv : (prices16 n).head? = some ch!"ร" := by cases n <;> rfl
    obtain ⟨d, t1, t2, ss, j1, j2, j3, j4, j5⟩ := C63_lines (p := Parser.new (fun _ => []) false) (look := fun _ => none)
      (x := b!"ราคา") (g := b!" ") (y := prices n) (s := u!" ") thaiCType_ok rfl (by intro v; rfl) (fun v data h => by cases h)
      (u := u!"ราคา") (a := ch!"า") (b := ch!"ร") (by decide +kernel) (by decide +kernel) (prices_16 n) rfl (.inr (.inl rfl)) hv
      (.inl rfl) (by intro c hc; cases List.mem_singleton.mp hc; unfold IsText; decide +kernel) (by decide) (.inl rfl) h0 h2
      romanSyl (by simp) ch!"-"
    rw [k1] at j2; cases j2
    rw [k2] at j3; cases j3
    rw [q1] at j5
    refine ⟨d, ss, j1, j4, ?_, ?_⟩
    · have := j5.length_eq
      rw [List.length_map] at this
      rw [this]
      simp [k3]
      omega
    · rw [j5.nodup_iff]
      simp only [List.flatMap_cons, List.flatMap_nil, List.append_nil]
      refine List.nodup_append.mpr ⟨?_, ?_, ?_⟩
      · exact k4.map fun a b hab => by simpa using hab
      · exact k4.map fun a b hab => by simpa using hab
      · intro a ha b hb hab
        obtain ⟨x, -, rfl⟩ := List.mem_map.mp ha
        obtain ⟨y, -, rfl⟩ := List.mem_map.mp hb
        have := congrArg (fun l => l[2]?) hab
        revert this
        simp

/-- No polynomial in the length of the word bounds the number of pronunciations. -/
theorem C76_false : ¬ ∃ c k : Nat, ∀ word w d ss, fromBytes word = .ok w →
    (Parser.new (fun _ => []) false).parseWord thaiCType word = .ok d → PronunDAG.sylStrings d 0 = .ok ss →
      ss.length ≤ c * (w.length + 1) ^ k := by
  rintro ⟨c, k, h⟩
  obtain ⟨n, -, hn⟩ := poly_lt_exp (c * 5 ^ k) k
  obtain ⟨h1, h2, d, ss, h3, h4, h5, -⟩ := C76_exp n
  have h6 := h _ _ d ss h2 h3 h4
  rw [h5, h1] at h6
  have h7 : c * (5 * n + 4 + 1) ^ k ≤ c * 5 ^ k * (3 * n + 2) ^ k := by
    rw [Nat.mul_assoc, ← Nat.mul_pow]
    exact Nat.mul_le_mul_left _ (Nat.pow_le_pow_left (by omega) _)
  have h8 : 2 ^ n < 2 ^ (n + 1) := Nat.pow_lt_pow_right (by omega) (by omega)
  omega

/-- Strictly ascending lists over a finite set are at most as many as its subsets. -/
theorem ascending_count {α : Type} (r : α → Int) (E : List α) (ps : List (List α)) (hn : ps.Nodup)
    (h : ∀ q ∈ ps, (∀ x ∈ q, x ∈ E) ∧ q.Pairwise fun a b => r a < r b) : ps.length ≤ 2 ^ E.length := by
  classical
  have hnd : ∀ q ∈ ps, q.Nodup := fun q hq => (h q hq).2.imp fun {a b} hab he => by rw [he] at hab; exact lt_irrefl _ hab
  have hinj : (ps.map List.toFinset).Nodup := by
    unfold List.Nodup
    rw [List.pairwise_map]
    refine hn.imp_of_mem ?_
    intro a b ha hb hab he
    apply hab
    have hp : a.Perm b := by
      rw [List.perm_ext_iff_of_nodup (hnd a ha) (hnd b hb)]
      intro x
      rw [← List.mem_toFinset, he, List.mem_toFinset]
    exact hp.eq_of_pairwise (fun x y _ _ h1 h2 => absurd (h1.trans h2) (lt_irrefl _)) (h a ha).2 (h b hb).2
  have hsub : (ps.map List.toFinset).toFinset ⊆ E.toFinset.powerset := by
    intro s hs
    rw [List.mem_toFinset, List.mem_map] at hs
    obtain ⟨q, hq, rfl⟩ := hs
    rw [Finset.mem_powerset]
    intro x hx
    rw [List.mem_toFinset] at hx ⊢
    exact (h q hq).1 x hx
  have h1 := Finset.card_le_card hsub
  rw [List.toFinset_card_of_nodup hinj, List.length_map, Finset.card_powerset] at h1
  exact h1.trans (Nat.pow_le_pow_right (by omega) (List.toFinset_card_le E))

/-- The number of pronunciations is at most exponential in the number of edges. -/
theorem C76_partial (hct : ct.Ok) (hw : fromBytes word = .ok w) (hd : Holds p.exceptDict look) (hg : GoodLook look) {B : Nat}
    (hB : WordsWithin look B) (h : p.parseWord ct word = .ok d) {ss : List SylString} (hs : PronunDAG.sylStrings d 0 = .ok ss) :
    ss.length ≤ 2 ^ (2 * w.length * (145 + w.length * B)) := by
  obtain ⟨hb, ha⟩ := C38_acyclic hct hw hd hg h
  obtain ⟨ps, h1, h2, h3⟩ := C15_listing d hb ha
  rw [hs] at h1
  cases h1
  rw [List.length_map]
  refine (ascending_count (fun e : Entry Syl => place e.key) d.mFrom ps h2 fun q hq => ?_).trans
    (Nat.pow_le_pow_right (by omega) (C75_space hct hw hd hB h).1)
  have hout : ∀ {n : Int} {e : Entry Syl}, e ∈ d.outEdges n → e ∈ d.mFrom ∧ e.key = n := by
    intro n e he
    unfold DAG.outEdges DAG.equalRange at he
    simpa using he
  have key : ∀ {n : Int} {q : List (Entry Syl)}, MaxPath d n q → (∀ x ∈ q, x ∈ d.mFrom ∧ place n ≤ place x.key) ∧
      q.Pairwise fun a b => place a.key < place b.key := by
    intro n q hq
    induction hq with
    | last he _ =>
      refine ⟨fun x hx => ?_, by simp⟩
      cases List.mem_singleton.mp hx
      exact ⟨(hout he).1, by rw [(hout he).2]⟩
    | @step n e q he _ ih =>
      have hlt := (C38_edges hct hw hd hg h e (hout he).1).2.2.1
      refine ⟨fun x hx => ?_, ?_⟩
      · rcases List.mem_cons.mp hx with rfl | hx
        · exact ⟨(hout he).1, by rw [(hout he).2]⟩
        · have := ih.1 x hx
          rw [(hout he).2] at hlt
          exact ⟨this.1, by omega⟩
      · rw [List.pairwise_cons]
        refine ⟨fun x hx => ?_, ih.2⟩
        have := ih.1 x hx
        omega
  have := key ((h3 q).mp hq)
  exact ⟨fun x hx => (this.1 x hx).1, this.2⟩

/-! ## The hypotheses are met -/

example : ∃ d, (Parser.new (fun _ => []) false).parseWord thaiCType b!"ราคา" = .ok d ∧ d.mFrom.length = 3 ∧
    fromBytes b!"ราคา" = .ok u!"ราคา" ∧ (Parser.new (fun _ => []) false).exceptDict = none ∧
    WordsWithin (fun _ => none) 0 ∧ GoodLook (fun _ => none) := by
  obtain ⟨d, hd, h⟩ := parsesTo_spec (n := 60) (w := u!"ราคา") (dict := none) (brk := [])
    (P := fun d => d.mFrom.length == 3) (by decide +kernel)
  exact ⟨d, hd, beq_iff_eq.mp h, by decide +kernel, rfl, fun v data strs h => (by cases h), fun v data h => (by cases h)⟩

end Thpronun
