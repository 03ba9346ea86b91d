import Verif.Lemmas.Entry
import Verif.Lemmas.Again
import Verif.Lemmas.JsonWord
import Verif.Model.Cli
import Verif.Props.Shipped
import Verif.Props.Syl
import Verif.Props.Words

/-! # Property C70: the raw lines of a word make its dictionary entry -/

namespace Thpronun
open Res Spec DAG Shipped

/-- Listing a DAG and building one from the list gives the outgoing edges in the same order, so that everything printed
stays the same. -/
theorem C70_rebuild (d : PronunDAG) (hb : Built d) (ha : Acyclic d)
    (hr : ∀ e ∈ d.mFrom, Relation.ReflTransGen (Arrow d) 0 e.key) (he : ∀ e ∈ d.mFrom, e.val.endPos = e.target) :
    ∃ ss, PronunDAG.sylStrings d 0 = .ok ss ∧ (∀ n, (PronunDAG.ofStrings ss).outEdges n = d.outEdges n) ∧
      ∀ k : Cli.OutKind, k.run (PronunDAG.ofStrings ss) = k.run d := by
  obtain ⟨ps, hps, -⟩ := C15_listing d hb ha
  refine ⟨_, hps, rebuild_order hb ha hr he hps, run_congr (rebuild_mFrom hb ha hr he hps)⟩

example : ∃ d : PronunDAG, Built d ∧ Acyclic d ∧ d.mFrom.length = 3 ∧
    (∀ e ∈ d.mFrom, Relation.ReflTransGen (Arrow d) 0 e.key) ∧ (∀ e ∈ d.mFrom, e.val.endPos = e.target) := by
  let a : Syl := Syl.mk5 .KA SC.NONE VW.A .NONE .EK 1
  let b : Syl := Syl.mk5 .KHA SC.NONE VW.A .NONE .EK 1
  let c : Syl := Syl.mk5 .NGA SC.NONE VW.A .NONE .EK 2
  refine ⟨(((DAG.empty.addEdge 1 2 c).1.addEdge 0 1 b).1.addEdge 0 1 a).1, .addEdge _ _ _ (.addEdge _ _ _ (.addEdge _ _ _ .empty)),
    acyclic_of_rank id (by decide +kernel), by decide +kernel, ?_, by decide +kernel⟩
  have h1 : ∀ e ∈ (((DAG.empty.addEdge 1 2 c).1.addEdge 0 1 b).1.addEdge 0 1 a).1.mFrom, e.key = 0 ∨ e.key = 1 := by
    decide +kernel
  intro e he
  rcases h1 e he with h | h
  · rw [h]
  · rw [h]
    exact .single ⟨⟨0, 1, a⟩, by decide +kernel, rfl⟩

variable {ct : CType} {w : U16Str} {look0 look : List Nat → Option Str} {p0 p : Parser} {word : Str} {d0 : PronunDAG}
  {l : List SylString} {texts : List Str}

/-- With its raw lines as dictionary entry, a word is parsed as before and everything is printed as before. -/
theorem C70_entry (hct : ct.Ok) (hw : fromBytes word = .ok w) (hd0 : Holds p0.exceptDict look0) (hg : GoodLook look0)
    (h0 : p0.parseWord ct word = .ok d0) (hl : PronunDAG.sylStrings d0 0 = .ok l) (hne : l ≠ [])
    (hlit : ∀ s ∈ l, ∀ x ∈ s, x.literal = []) (hsize : 101 * w.length ≤ 0x80000000)
    (ht : List.Forall₂ (fun s t => delimStr rawSyl ch!"," s = .ok t) l texts)
    (hd : Holds p.exceptDict look) (hlook : look w = some (joinWith ch!";" texts))
    (hst : TokenTo ct w (findBreaks w p.thBrk) 0 w.length) (hb : ∀ b ∈ findBreaks w p.thBrk, b ≤ w.length)
    (hs : ∀ m data, WordAt ct w look 0 w.length m data → m = w.length) :
    ∃ d, p.parseWord ct word = .ok d ∧ PronunDAG.sylStrings d 0 = .ok l ∧
      ∀ outs, Cli.doParse (p.parseWord ct) outs word = Cli.doParse (p0.parseWord ct) outs word := by
  obtain ⟨hB, ha⟩ := C38_acyclic hct hw hd0 hg h0
  have h0' := h0
  rw [C37_word p0 word w hw] at h0'
  have hedge := fun e he => C38_edges hct hw hd0 hg h0 e he
  have hr : ∀ e ∈ d0.mFrom, Relation.ReflTransGen (Arrow d0) 0 e.key := fun e he => by
    obtain ⟨q, hq, heq⟩ := edge_on_path hct hg hd0 h0' he
    exact hq.isPath.reach e heq
  have hend : ∀ e ∈ d0.mFrom, e.val.endPos = e.target := fun e he => (hedge e he).1
  have hvalid : ∀ s ∈ l, ValidStr s := by
    obtain ⟨ps, h1, -, h3⟩ := C15_listing d0 hB ha
    rw [hl] at h1
    cases h1
    intro s hs
    have hlits := hlit s hs
    obtain ⟨path, hp, rfl⟩ := List.mem_map.mp hs
    have hmp := (h3 path).mp hp
    refine ⟨by simpa using hmp.ne_nil, fun x hx => ?_⟩
    have hxl := hlits x hx
    obtain ⟨e, he, rfl⟩ := List.mem_map.mp hx
    have hm := hmp.isPath.mem e he
    obtain ⟨e1, e2, e3, e4, -⟩ := hedge e hm
    refine ⟨(C39_labels hct hw hd0 hg h0 e hm).1.elim id fun h => absurd hxl h.1, ?_⟩
    rw [e1]
    unfold place at e3 e4 e2
    unfold IsInt
    split at e4 <;> omega
  obtain ⟨texts', ht', hmk⟩ := C07_alternatives l hne hvalid
  have hte : texts' = texts := texts_unique ht' ht
  subst hte
  have hp := parse_whole hct hd hb (tokenTo_iff.mp hst) (dictAt_single hst.1 hlook hs) hmk
  have hm : (DAG.empty.unionDAG (PronunDAG.ofStrings l)).mFrom = d0.mFrom := by
    rw [union_empty_mFrom (by rw [ofStrings_eq]; exact built_addEdges .empty _), rebuild_mFrom hB ha hr hend hl]
  refine ⟨_, (C37_word p word w hw).trans hp, ?_, fun outs => ?_⟩
  · rw [← hl]; exact sylStrings_congr hm 0
  · unfold Cli.doParse
    rw [h0, C37_word p word w hw, hp]
    simp only [ok_bind]
    rw [outputs_congr hm]

/-- The same for a dictionary file to which the entry is added as last line. -/
theorem C70_file (hct : ct.Ok) (hw : fromBytes word = .ok w) (hd0 : Holds p0.exceptDict look0) (hg : GoodLook look0)
    (h0 : p0.parseWord ct word = .ok d0) (hl : PronunDAG.sylStrings d0 0 = .ok l) (hne : l ≠ [])
    (hlit : ∀ s ∈ l, ∀ x ∈ s, x.literal = []) (ht : List.Forall₂ (fun s t => delimStr rawSyl ch!"," s = .ok t) l texts)
    (junk : Byte) (es : List DEntry) (hes : ∀ e ∈ es ++ [(⟨w, joinWith ch!";" texts⟩ : DEntry)], GoodEntry e)
    (hsz : ((es ++ [(⟨w, joinWith ch!";" texts⟩ : DEntry)]).map fun e => e.data.length + 1).sum < 0x80000000) (q : Parser)
    (hst : TokenTo ct w (findBreaks w q.thBrk) 0 w.length) (hb : ∀ b ∈ findBreaks w q.thBrk, b ≤ w.length)
    (hs : ∀ m data, WordAt ct w (lastData es) 0 w.length m data → m = w.length) :
    ∃ t b p, Gen.genDict junk ((es ++ [(⟨w, joinWith ch!";" texts⟩ : DEntry)]).flatMap entryLine) = .ok (.success t b) ∧
      q.loadExceptDict (Gen.GenResult.file (.success t b)) = .ok (p, true) ∧
      ∀ outs, Cli.doParse (p.parseWord ct) outs word = Cli.doParse (p0.parseWord ct) outs word := by
  obtain ⟨t, b, p, h1, h2, h3, h4⟩ := holds_generated junk _ (by simp) hes hsz q
  have hlast : ∀ v, lastData (es ++ [(⟨w, joinWith ch!";" texts⟩ : DEntry)]) v = if w = v then some (joinWith ch!";" texts) else lastData es v := by
    intro v
    unfold lastData
    rw [List.reverse_append, List.reverse_singleton, List.singleton_append, List.find?_cons]
    by_cases hv : w = v <;> simp [hv]
  have hgood := (hes ⟨w, joinWith ch!";" texts⟩ (by simp)).2.2
  simp only at hgood
  obtain ⟨d, -, -, h⟩ := C70_entry hct hw hd0 hg h0 hl hne hlit (by omega) ht h4 (by rw [hlast, if_pos rfl])
    (by rw [h3]; exact hst) (by rw [h3]; exact hb) fun m data hm => by
      obtain ⟨m1, m2, m3, m4⟩ := hm
      rw [hlast] at m3
      split at m3
      · rename_i hv
        have := congrArg List.length hv
        unfold piece at this
        rw [List.length_take, List.length_drop] at this
        omega
      · exact hs m data ⟨m1, m2, m3, m4⟩
  exact ⟨t, b, p, h1, h2, h⟩

/-- The raw lines of ตากลม. -/
def takLomLines : List Str :=
  [b!"t_A_0@2,klom0@5", b!"t_A_0@2,k_a_1@-205,l_om0@5", b!"t_A_0@2,k_a_1@3,l_om0@5", b!"t_Ak1@3,l_om0@5", b!"t_Ak1@2,klom0@5",
   b!"t_Ak1@2,k_a_1@-205,l_om0@5", b!"t_Ak1@2,k_a_1@3,l_om0@5"]

/-- ตากลม meets the hypotheses. -/
example : ∃ (p0 : Parser) (d0 : PronunDAG) (l : List SylString), p0.thBrk = none ∧
    Holds p0.exceptDict (fun _ => none) ∧ GoodLook (fun _ => none) ∧
    p0.parseWord thaiCType b!"ตากลม" = .ok d0 ∧ PronunDAG.sylStrings d0 0 = .ok l ∧ l ≠ [] ∧
    (∀ s ∈ l, ∀ x ∈ s, x.literal = []) ∧ List.Forall₂ (fun s t => delimStr rawSyl ch!"," s = .ok t) l takLomLines ∧
    GoodEntry ⟨u!"ตากลม", joinWith ch!";" takLomLines⟩ ∧ TokenTo thaiCType u!"ตากลม" [] 0 (u!"ตากลม").length := by
  have hw : fromBytes b!"ตากลม" = .ok u!"ตากลม" := by decide +kernel
  obtain ⟨d, l, h1, h2, h3⟩ := lists_spec (n := 60) (w := u!"ตากลม") (Q := fun l =>
    decide (∀ s ∈ l, ∀ x ∈ s, x.literal = []) && decide (l.map (delimStr rawSyl ch!",") = takLomLines.map Res.ok)) (by decide +kernel)
  obtain ⟨h3, h4⟩ := Bool.and_eq_true_iff.mp h3
  have h4 := of_decide_eq_true h4
  refine ⟨Parser.new (fun _ => []) false, d, l, rfl, holds_none, fun _ _ h => (by cases h),
    (C37_word _ _ _ hw).trans h1, h2, ?_, of_decide_eq_true h3, ?_, by decide +kernel, ?_⟩
  · rintro rfl
    cases h4
  · have key : ∀ (l : List SylString) (ts : List Str), l.map (delimStr rawSyl ch!",") = ts.map Res.ok →
        List.Forall₂ (fun s t => delimStr rawSyl ch!"," s = .ok t) l ts := by
      intro l
      induction l with
      | nil => intro ts h; cases ts with
        | nil => exact .nil
        | cons t ts => cases h
      | cons s l ih =>
        intro ts h
        cases ts with
        | nil => cases h
        | cons t ts =>
          rw [List.map_cons, List.map_cons, List.cons.injEq] at h
          exact .cons h.1 (ih ts h.2)
    exact key _ _ h4
  · exact tokenTo_iff.mpr (isStop_whole (by decide) (by decide +kernel) fun b hb => by cases hb)

end Thpronun
