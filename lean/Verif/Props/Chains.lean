import Verif.Props.Size
import Verif.Props.Count
import Verif.Lemmas.Chains

/-! # C76: a better bound of the number of pronunciations -/

namespace Thpronun
open Res Spec

variable {ct : CType} {p : Parser} {word : Str} {w : U16Str} {look : List Nat → Option Str} {d : PronunDAG}

/-- Not more than `(146 + n * B) ^ (2 * n)` pronunciations are listed for a word of `n` characters. -/
theorem C76_upper (hct : ct.Ok) (hw : fromBytes word = .ok w) (hd : Holds p.exceptDict look) (hg : GoodLook look) {B : Nat}
    (hB : WordsWithin look B) (h : p.parseWord ct word = .ok d) {ss : List SylString} (hs : PronunDAG.sylStrings d 0 = .ok ss) :
    ss.length ≤ (146 + w.length * B) ^ (2 * w.length) := by
  obtain ⟨hb, ha⟩ := C38_acyclic hct hw hd hg h
  obtain ⟨ps, h1, h2, h3⟩ := C15_listing d hb ha
  rw [hs] at h1
  cases h1
  rw [List.length_map, show 146 + w.length * B = (145 + w.length * B) + 1 by omega]
  refine ascending_prod (fun e : Entry Syl => place e.key) (2 * w.length) d.mFrom ps h2 (fun q hq => ?_) (C75_space hct hw hd hB h).1
  have hout : ∀ {n : Int} {e : Entry Syl}, e ∈ d.outEdges n → e ∈ d.mFrom ∧ e.key = n := by
    intro n e he
    unfold DAG.outEdges DAG.equalRange at he
    simpa using he
  have key : ∀ {n : Int} {q : List (Entry Syl)}, MaxPath d n q → (∀ x ∈ q, x ∈ d.mFrom ∧ place n ≤ place x.key) ∧
      q.Pairwise fun a b => place a.key < place b.key := by
    intro n q hq
    induction hq with
    | last he _ =>
      refine ⟨fun x hx => ?_, by simp⟩
      cases List.mem_singleton.mp hx
      exact ⟨(hout he).1, by rw [(hout he).2]⟩
    | @step n e q he _ ih =>
      have hlt := (C38_edges hct hw hd hg h e (hout he).1).2.2.1
      refine ⟨fun x hx => ?_, ?_⟩
      · rcases List.mem_cons.mp hx with rfl | hx
        · exact ⟨(hout he).1, by rw [(hout he).2]⟩
        · have := ih.1 x hx
          rw [(hout he).2] at hlt
          exact ⟨this.1, by omega⟩
      · rw [List.pairwise_cons]
        refine ⟨fun x hx => ?_, ih.2⟩
        have := ih.1 x hx
        omega
  have := key ((h3 q).mp hq)
  refine ⟨fun x hx => ⟨(this.1 x hx).1, ?_⟩, this.2⟩
  have := C38_edges hct hw hd hg h x (this.1 x hx).1
  omega

/-- Not more than `(291 + 2 * n * B) ^ n` if every syllable of the dictionary begins a character of its own, as in the shipped
one (`C69_data`). -/
theorem C76_paced (hct : ct.Ok) (hw : fromBytes word = .ok w) (hd : Holds p.exceptDict look) (hg : GoodLook look)
    (hp : PacedLook look) {B : Nat} (hB : WordsWithin look B) (h : p.parseWord ct word = .ok d) {ss : List SylString}
    (hs : PronunDAG.sylStrings d 0 = .ok ss) : ss.length ≤ (291 + 2 * w.length * B) ^ w.length := by
  obtain ⟨hb, ha⟩ := C38_acyclic hct hw hd hg h
  obtain ⟨ps, h1, h2, h3⟩ := C15_listing d hb ha
  rw [hs] at h1
  cases h1
  rw [List.length_map, show 291 + 2 * w.length * B = (290 + 2 * w.length * B) + 1 by omega]
  have hE : d.mFrom.length ≤ w.length * (290 + 2 * w.length * B) := by
    refine (C75_space hct hw hd hB h).1.trans (Nat.le_of_eq ?_)
    ring
  refine ascending_prod (fun e : Entry Syl => begun e.key) w.length d.mFrom ps h2 (fun q hq => ?_) hE
  have hpl : ∀ n m : Int, place n ≤ place m → 0 ≤ place n → 0 ≤ begun n ∧ (place m ≤ 2 * w.length → begun m ≤ w.length) := by
    intro n m h1 h2
    unfold place at h1 h2 ⊢
    unfold begun
    constructor
    · split at h2 <;> split <;> omega
    · split <;> omega
  have hout : ∀ {n : Int} {e : Entry Syl}, e ∈ d.outEdges n → e ∈ d.mFrom ∧ e.key = n := by
    intro n e he
    unfold DAG.outEdges DAG.equalRange at he
    simpa using he
  have key : ∀ {n : Int} {q : List (Entry Syl)}, MaxPath d n q → (∀ x ∈ q, x ∈ d.mFrom ∧ begun n ≤ begun x.key) ∧
      q.Pairwise fun a b => begun a.key < begun b.key := by
    intro n q hq
    induction hq with
    | last he _ =>
      refine ⟨fun x hx => ?_, by simp⟩
      cases List.mem_singleton.mp hx
      exact ⟨(hout he).1, by rw [(hout he).2]⟩
    | @step n e q he _ ih =>
      have hlt := C69_edge hct hw hd hg hp h e (hout he).1
      rw [(C38_edges hct hw hd hg h e (hout he).1).1] at hlt
      refine ⟨fun x hx => ?_, ?_⟩
      · rcases List.mem_cons.mp hx with rfl | hx
        · exact ⟨(hout he).1, by rw [(hout he).2]⟩
        · have := ih.1 x hx
          rw [(hout he).2] at hlt
          exact ⟨this.1, by omega⟩
      · rw [List.pairwise_cons]
        refine ⟨fun x hx => ?_, ih.2⟩
        have := ih.1 x hx
        omega
  have := key ((h3 q).mp hq)
  refine ⟨fun x hx => ⟨(this.1 x hx).1, ?_⟩, this.2⟩
  obtain ⟨k1, k2, k3, k4, -⟩ := C38_edges hct hw hd hg h x (this.1 x hx).1
  have hlt := C69_edge hct hw hd hg hp h x (this.1 x hx).1
  obtain ⟨g1, g2⟩ := hpl _ _ k3.le k2
  rw [k1] at hlt
  have := g2 k4
  omega

/-- Without dictionary the number of pronunciations lies, for the worst words of `n` characters, between `2 ^ (n / 5)` (`C76_exp`)
and `291 ^ n`. -/
theorem C76_base (hct : ct.Ok) (hw : fromBytes word = .ok w) (hd : p.exceptDict = none) (h : p.parseWord ct word = .ok d)
    {ss : List SylString} (hs : PronunDAG.sylStrings d 0 = .ok ss) : ss.length ≤ 291 ^ w.length := by
  have h1 := C76_paced (look := fun _ => none) (B := 0) hct hw (by rw [hd]; intro v; rfl) (fun v data h => by cases h)
    (fun v data strs h => by cases h) (fun v data strs h => by cases h) h hs
  rwa [Nat.mul_zero, Nat.add_zero] at h1

/-- The hypotheses are met by ราคา, which has two pronunciations. -/
example : ∃ d ss, (Parser.new (fun _ => []) false).parseWord thaiCType b!"ราคา" = .ok d ∧ PronunDAG.sylStrings d 0 = .ok ss ∧
    ss.length = 2 := by
  obtain ⟨-, -, d, ss, h1, h2, h3, -⟩ := C76_exp 0
  exact ⟨d, ss, h1, h2, h3⟩

end Thpronun
