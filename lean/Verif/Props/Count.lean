import Verif.Lemmas.Count
import Verif.Props.Spelling
import Verif.Props.Shipped
import Verif.Props.Words

/-! # Property C69: no more syllables than characters -/

namespace Thpronun
open Res Spec DAG Shipped

variable {ct : CType} {w : U16Str} {look : List Nat → Option Str} {p : Parser} {word : Str} {d : PronunDAG}
  {l : List (List Syl)}

/-- Every edge begins a character of its own. -/
theorem C69_edge (hct : ct.Ok) (hw : fromBytes word = .ok w) (hd : Holds p.exceptDict look) (hg : GoodLook look)
    (hp : PacedLook look) (h : p.parseWord ct word = .ok d) (e : Entry Syl) (he : e ∈ d.mFrom) :
    begun e.key < begun e.val.endPos := by
  obtain ⟨k1, k2, k3, -⟩ := C38_edges hct hw hd hg h e he
  obtain ⟨es, ⟨c, hc, -, rfl⟩, e', he', e1, e2, -⟩ :=
    (C43_edges hct hw hd h e.key e.target e.val).mp ⟨e, List.mem_filter.mpr ⟨he, by simp⟩, rfl, Syl.eq_refl _⟩
  have hst := deriv_steps hp hc e' he'
  unfold Steps at hst
  rw [e1, e2] at hst
  rw [k1]
  rcases hst with ⟨g1, g2⟩ | hst
  · unfold place at k3
    unfold begun
    rw [if_neg (by omega), if_neg (by omega)] at k3 ⊢
    omega
  · exact hst

/-- Every syllable of a pronunciation begins a character of its own. -/
theorem C69_paced (hct : ct.Ok) (hw : fromBytes word = .ok w) (hd : Holds p.exceptDict look) (hg : GoodLook look)
    (hp : PacedLook look) (h : p.parseWord ct word = .ok d) (hl : PronunDAG.sylStrings d 0 = .ok l) (ss : List Syl)
    (hs : ss ∈ l) : Paced 0 ss := by
  obtain ⟨hb, ha⟩ := C38_acyclic hct hw hd hg h
  obtain ⟨ps, h1, -, h3⟩ := C15_listing d hb ha
  rw [hl] at h1
  cases h1
  obtain ⟨path, hpath, rfl⟩ := List.mem_map.mp hs
  have hedge := C69_edge hct hw hd hg hp h
  have key : ∀ n path, MaxPath d n path → Paced n (path.map Entry.val) := by
    intro n path hp
    induction hp with
    | @last n e he _ =>
      obtain ⟨hm, rfl⟩ := mem_outEdges.mp he
      exact ⟨hedge e hm, trivial⟩
    | @step n e path he _ ih =>
      obtain ⟨hm, rfl⟩ := mem_outEdges.mp he
      refine ⟨hedge e hm, ?_⟩
      rw [(C38_edges hct hw hd hg h e hm).1]
      exact ih
  exact key 0 path ((h3 path).mp hpath)

theorem paced_length {n m : Int} {ss : List Syl} (hf : Forward n m ss) (hp : Paced n ss) :
    begun n + ss.length ≤ begun m := by
  induction ss generalizing n with
  | nil => obtain rfl := hf; simp
  | cons s ss ih =>
    have := ih hf.2 hp.2
    have := hp.1
    simp only [List.length_cons]
    push_cast
    omega

/-- No pronunciation has more syllables than the word has characters (UTF-16 units). -/
theorem C69_count (hct : ct.Ok) (hw : fromBytes word = .ok w) (hd : Holds p.exceptDict look) (hg : GoodLook look)
    (hp : PacedLook look) (h : p.parseWord ct word = .ok d) (hl : PronunDAG.sylStrings d 0 = .ok l) (ss : List Syl)
    (hs : ss ∈ l) : ss.length ≤ w.length := by
  obtain ⟨l', h1, h2⟩ := C38_listing hct hw hd hg h
  rw [hl] at h1
  cases h1
  have := paced_length (h2 ss hs).2 (C69_paced hct hw hd hg hp h hl ss hs)
  rw [begun_nat] at this
  have h0 : begun 0 = 0 := rfl
  omega

/-- With other dictionaries, whose readings lead forward, there are at most twice as many. -/
theorem C69_twice (hct : ct.Ok) (hw : fromBytes word = .ok w) (hd : Holds p.exceptDict look) (hg : GoodLook look)
    (h : p.parseWord ct word = .ok d) (hl : PronunDAG.sylStrings d 0 = .ok l) (ss : List Syl)
    (hs : ss ∈ l) : ss.length ≤ 2 * w.length := by
  obtain ⟨l', h1, h2⟩ := C38_listing hct hw hd hg h
  rw [hl] at h1
  cases h1
  have key : ∀ (n m : Int) (ss : List Syl), Forward n m ss → place n + ss.length ≤ place m := by
    intro n m ss
    induction ss generalizing n with
    | nil => rintro rfl; simp
    | cons s ss ih =>
      intro hf
      have := ih _ hf.2
      have := hf.1
      simp only [List.length_cons]
      push_cast
      omega
  have := key _ _ _ (h2 ss hs).2
  rw [place_nat] at this
  have h0 : place 0 = 0 := rfl
  omega

/-- The shipped dictionary is of the first kind. -/
theorem C69_data : PacedLook (lastData exceptEntries) := by
  intro v data strs hl hdata
  unfold lastData at hl
  obtain ⟨e, he, rfl⟩ := Option.map_eq_some_iff.mp hl
  have key : ∀ e ∈ exceptEntries, (match SylString.makeSylStrings e.data with
      | .ok strs => decide (∀ str ∈ strs, Paced 0 str)
      | _ => true) = true := by decide +kernel
  have := key e (List.mem_reverse.mp (List.mem_of_find?_eq_some he))
  rw [(makeSylStrings_iff _ _).mpr hdata] at this
  exact of_decide_eq_true this

/-- The shipped dictionary, and no dictionary, meet the hypotheses. -/
example : ∃ p : Parser, Holds p.exceptDict (lastData exceptEntries) ∧ GoodLook (lastData exceptEntries) ∧
    PacedLook (lastData exceptEntries) := by
  obtain ⟨-, -, p, -, -, -, h, h'⟩ := C48_dict 0 (Parser.new (fun _ => []) false)
  exact ⟨p, h, h', C69_data⟩

example : PacedLook fun _ => none := fun _ _ _ h => by cases h

/-- The condition on the dictionary is needed: "ณ" with two syllables. -/
theorem C69_needed : ∃ (es : List DEntry) (p : Parser) (d : PronunDAG) (l : List (List Syl)) (ss : List Syl),
    GoodLook (lastData es) ∧ Holds p.exceptDict (lastData es) ∧ p.parseWord thaiCType b!"ณ" = .ok d ∧
      PronunDAG.sylStrings d 0 = .ok l ∧ ss ∈ l ∧ (u!"ณ").length < ss.length := by
  have hw : fromBytes b!"ณ" = .ok u!"ณ" := by decide +kernel
  have hdat : DataIs b!"n_a_3@-1,n_a_3@1" [[⟨.NA, SC.NONE, VW.A, .NONE, .TRI, [], -1⟩, ⟨.NA, SC.NONE, VW.A, .NONE, .TRI, [], 1⟩]] :=
    (makeSylStrings_iff _ _).mp (by decide +kernel)
  obtain ⟨-, -, p, -, -, hb, hh⟩ := holds_generated 0 [⟨u!"ณ", b!"n_a_3@-1,n_a_3@1"⟩] (by simp) (by decide +kernel)
    (by decide +kernel) (Parser.new (fun _ => []) false)
  have hlook : lastData [⟨u!"ณ", b!"n_a_3@-1,n_a_3@1"⟩] u!"ณ" = some b!"n_a_3@-1,n_a_3@1" := by decide +kernel
  have hgood : GoodLook (lastData [⟨u!"ณ", b!"n_a_3@-1,n_a_3@1"⟩]) := by
    intro v data hl
    unfold lastData at hl
    obtain ⟨e, he, rfl⟩ := Option.map_eq_some_iff.mp hl
    have h1 := List.find?_some he
    have h2 := List.mem_reverse.mp (List.mem_of_find?_eq_some he)
    rw [List.mem_singleton] at h2
    subst h2
    obtain rfl := of_decide_eq_true h1
    exact ⟨_, (makeSylStrings_iff _ _).mpr hdat, by decide +kernel⟩
  have hbr : p.thBrk = none := hb
  have hf : findBreaks u!"ณ" p.thBrk = [] := by rw [hbr]; rfl
  obtain ⟨d, hd⟩ := C37_partial thaiCType_ok p _ _ _ hw hh hgood.readable
    (by rw [hf]; intro b hb; cases hb) (by decide +kernel)
  refine ⟨_, p, d, _, _, hgood, hh, hd, C42_single thaiCType_ok hw hh hgood hd ?_ hlook ?_ hdat, List.mem_singleton_self _, ?_⟩
  · rw [hf]
    exact tokenTo_iff.mpr (isStop_whole (by decide) (by decide +kernel) (fun b hb => by cases hb))
  · rintro m data ⟨h1, h2, -⟩
    have : (u!"ณ").length = 1 := rfl
    omega
  · decide

end Thpronun
