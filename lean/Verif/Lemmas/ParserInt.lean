import Verif.Model.ParserInt
import Verif.Lemmas.ParserFacts

/-! # Lemmas on the parser with 32-bit `int` -/

namespace Thpronun
open Res Spec DAG

variable {ct : CType} {w : U16Str} {brk : List Int} {look : List Nat → Option Str}

theorem int32_ok {x : Int} (h : -2147483648 ≤ x ∧ x < 2147483648) : int32 x = .ok x := if_pos h

theorem preNode32_ok {cur pos : Nat} (h : 100 * cur + pos < 2147483648) : preNode32 cur pos = .ok (preNode cur pos) := by
  unfold preNode32 preNode
  rw [int32_ok (by omega), ok_bind, int32_ok (by omega), ok_bind, int32_ok (by omega)]

theorem addEmits32_ok {s : PState} : ∀ (es : List Emit) (pool : StatePool), (∀ e ∈ es, 100 * s.pos + e.pos < 2147483648) →
    addEmits32 pool s es = .ok (addEmits pool s es)
  | [], pool, _ => rfl
  | e :: es, pool, h => by
    have h1 : addSyl32 s e.p e.pos = .ok (addSyl s e.p e.pos) := by
      unfold addSyl32 addSyl
      cases e.p.pre with
      | none => rfl
      | some pre => simp only [preNode32_ok (h e (by simp)), ok_bind, pure_eq]
    rw [addEmits32, h1, ok_bind, addEmits32_ok es _ fun x hx => h x (by simp [hx])]
    rfl

/-- End positions of readings of a word. -/
theorem forward_bounds {n : Nat} {str : List Syl} : ∀ {p : Int}, 0 ≤ place p → Forward p n str →
    ∀ s ∈ str, -(101 * n) < s.endPos ∧ s.endPos ≤ n := by
  have le : ∀ (str : List Syl) (p : Int), Forward p n str → place p ≤ 2 * n := by
    intro str
    induction str with
    | nil => intro p h; obtain rfl : p = n := h; rw [place]; split <;> omega
    | cons x str ih => intro p h; have := ih _ h.2; have := h.1; omega
  induction str with
  | nil => intro p _ _ s h; cases h
  | cons x str ih =>
    intro p hp h s hs
    have h1 := le _ _ h.2
    have h2 := h.1
    rcases List.mem_cons.mp hs with rfl | hs
    · have h3 : 0 < place s.endPos := by omega
      by_cases hn : s.endPos < 0
      · rw [place, if_pos hn] at h1 h3; omega
      · rw [place, if_neg hn] at h1 h3; omega
    · exact ih (by omega) h.2 s hs

theorem shiftEndPos32_ok {n off : Nat} {str : SylString} (h : ∀ s ∈ str, -(101 * n) < s.endPos ∧ s.endPos ≤ n)
    (hb : 101 * (n + off) ≤ 2147483648) : shiftEndPos32 str off = .ok (SylString.shiftEndPos str off) := by
  unfold shiftEndPos32 SylString.shiftEndPos
  induction str with
  | nil => rfl
  | cons s str ih =>
    have h1 : shiftPos32 off s.endPos = .ok (SylString.shiftPos off s.endPos) := by
      obtain ⟨h2, h3⟩ := h s (by simp)
      unfold shiftPos32 SylString.shiftPos
      split
      · have : (off : Int) * 101 < 2147483648 := by
          have : 0 < n := by omega
          omega
        rw [int32_ok (by omega), ok_bind, int32_ok (by omega)]
      · rw [int32_ok (by omega)]
    rw [SylString.mapRes, h1, ok_bind, pure_eq, ok_bind, ih fun x hx => h x (by simp [hx])]
    rfl

theorem exceptDag32_ok {p : Nat} : ∀ (strs : List SylString) (d : PronunDAG),
    (∀ x ∈ strs, shiftEndPos32 x p = .ok (SylString.shiftEndPos x p)) →
    exceptDag32 p d strs = .ok (strs.foldl (fun d x => PronunDAG.addSylString d p (SylString.shiftEndPos x p)) d)
  | [], d, _ => rfl
  | x :: xs, d, h => by
    rw [exceptDag32, h x (by simp), ok_bind, exceptDag32_ok xs _ fun y hy => h y (by simp [hy])]
    rfl

/-- The data can be used at `p` without overflow. -/
def Safe32 (p : Nat) (data : Str) : Prop :=
  ∀ strs, SylString.makeSylStrings data = .ok strs → ∀ x ∈ strs, shiftEndPos32 x p = .ok (SylString.shiftEndPos x p)

theorem exceptLoop32_reports {s : PState} {m : Match} {l : List (Nat × Str)}
    (h : Reports m l) (hs : ∀ x ∈ l, Safe32 s.pos x.2) : ∀ fuel, exceptLoop32 ct w s fuel m = exceptLoop ct w s fuel m := by
  induction h with
  | stop m h h' =>
    intro fuel
    cases fuel with
    | zero => rfl
    | succ fuel =>
      rw [exceptLoop, exceptLoop32]
      cases hb : m.findNext with
      | mk m' b =>
      rw [hb] at h
      simp only at h
      subst h
      rfl
  | found m d l h hd r ih =>
    intro fuel
    cases fuel with
    | zero => rfl
    | succ fuel =>
      rw [exceptLoop, exceptLoop32]
      cases hb : m.findNext with
      | mk m' b =>
      rw [hb] at h hd r ih
      simp only at h hd r ih
      subst h
      have ih := ih (fun x hx => hs x (by simp [hx])) fuel
      have hsafe := hs _ (List.mem_cons_self ..)
      simp only [ih, hd, ok_bind]
      cases hm : SylString.makeSylStrings d with
      | ok strs =>
        simp only [ok_bind, exceptDag32_ok strs s.dag (hsafe strs hm)]
        rfl
      | throw e => rfl
      | ub => rfl
      | diverge => rfl

theorem goodLook_safe (hg : GoodLook look) {p : Nat} (hb : 101 * w.length ≤ 2147483647) (x : Nat × Str)
    (hx : x ∈ prefixMatches look w p) : Safe32 p x.2 := by
  intro strs hstrs y hy
  unfold prefixMatches at hx
  obtain ⟨n, hn, hx⟩ := List.mem_filterMap.mp hx
  rw [List.mem_range'_1] at hn
  obtain ⟨data, hl, rfl⟩ := Option.map_eq_some_iff.mp hx
  obtain ⟨strs', h1, h2⟩ := hg _ _ hl
  simp only at hstrs
  rw [hstrs] at h1
  cases h1
  have hlen : ((w.drop p).take n).length = n := by rw [List.length_take, List.length_drop]; omega
  have hf := (h2 y hy).2
  rw [hlen] at hf
  exact shiftEndPos32_ok (forward_bounds (by decide) hf) (by omega)

theorem parseStep32_eq (hct : ct.Ok) (hg : GoodLook look) {dict : Option Dict} (hd : Holds dict look)
    (hb : 101 * w.length ≤ 2147483647) {s : PState} {pool : StatePool} {acc : PronunDAG} (hs : SOK ct w brk s) :
    parseStep32 ct w dict brk (s :: pool, acc) = parseStep ct w dict brk (s :: pool, acc) := by
  rw [parseStep, parseStep32]
  by_cases h1 : s.pos ≥ w.length
  · rw [if_pos h1, if_pos h1]
  · rw [if_neg h1, if_neg h1]
    by_cases h2 : s.pos ≥ s.stop
    · rw [if_pos h2, if_pos h2]
    · rw [if_neg h2, if_neg h2]
      have hst := hs.stop (by omega)
      have hchar : parseChar32 ct w s pool = parseChar ct w s pool := by
        unfold parseChar parseChar32
        cases hc : strAt w s.pos with
        | ok c =>
          simp only [ok_bind]
          have key : ∀ r : Res (List Emit), grammar ct w s.pos s.stop s.linked c = r →
              (r >>= fun es => addEmits32 pool s es) = (r >>= fun es => pure (addEmits pool s es)) := by
            intro r hr
            cases r with
            | ok es =>
              rw [ok_bind, ok_bind]
              refine addEmits32_ok es pool fun e he => ?_
              have := (grammar_ok hct hst.lt hst.le hr e he).2
              omega
            | throw e => rfl
            | ub => rfl
            | diverge => rfl
          unfold grammar at key
          simp only [eq_comm (a := UTH.SARA_E), eq_comm (a := UTH.RU), eq_comm (a := UTH.LU)]
          by_cases h1 : ct.isCons c = true
          · rw [if_pos h1, if_pos h1]; rw [if_pos h1] at key; exact key _ rfl
          · rw [if_neg h1, if_neg h1]; rw [if_neg h1] at key
            by_cases h2 : c = UTH.SARA_E
            · rw [if_pos h2, if_pos h2]; rw [if_pos h2] at key; exact key _ rfl
            · rw [if_neg h2, if_neg h2]; rw [if_neg h2] at key
              by_cases h3 : ct.isLdVowel c = true
              · rw [if_pos h3, if_pos h3]; rw [if_pos h3] at key; exact key _ rfl
              · rw [if_neg h3, if_neg h3]; rw [if_neg h3] at key
                by_cases h4 : c = UTH.RU ∨ c = UTH.LU
                · rw [if_pos h4, if_pos h4]; rw [if_pos h4] at key; exact key _ rfl
                · rw [if_neg h4, if_neg h4]
        | throw e => rfl
        | ub => rfl
        | diverge => rfl
      have hex : ∀ d, dict = some d → findExceptions32 ct w s d = findExceptions ct w s d := by
        rintro d rfl
        exact exceptLoop32_reports (hd w s.pos hs.pos) (goodLook_safe hg hb) _
      simp only [hchar]
      cases dict with
      | none => rfl
      | some d => dsimp only; rw [hex d rfl]; rfl

theorem parseStep_sok (hct : ct.Ok) {dict : Option Dict} {pool : StatePool} {acc : PronunDAG} {st : StatePool × PronunDAG}
    (hI : ∀ s ∈ pool, SOK ct w brk s) (hs : parseStep ct w dict brk (pool, acc) = .ok (.inl st)) :
    ∀ s ∈ st.1, SOK ct w brk s := by
  cases pool with
  | nil => rw [parseStep] at hs; cases hs
  | cons s pool =>
    rw [parseStep_cons hct] at hs
    by_cases hl : s.pos ≥ w.length
    · rw [if_pos hl] at hs
      cases hs
      exact fun x hx => hI x (by simp [hx])
    · rw [if_neg hl, bind_eq_ok] at hs
      obtain ⟨ss, hss, hs⟩ := hs
      cases hs
      have ht := expand_term hct dict (hI s (by simp)) (by omega)
      rw [hss] at ht
      exact pool_forall (fun s y hs hy _ _ => sok_merge hs hy) ss pool (fun x hx => hI x (by simp [hx]))
        fun x hx => (ht x hx).1

theorem parse32_eq (hct : ct.Ok) (hg : GoodLook look) {dict : Option Dict} (hd : Holds dict look)
    (hb : 101 * w.length ≤ 2147483647) : parseU16w32 ct w dict brk = parseU16 ct w dict brk := by
  unfold parseU16 parseU16w32
  cases hp : parseInit ct w brk with
  | ok pool =>
    rw [ok_bind, ok_bind]
    symm
    refine whileLoop_congr (I := fun st => ∀ s ∈ st.1, SOK ct w brk s) ?_ ?_ (parseInit_sok hct hp)
    · rintro ⟨pool, acc⟩ hI
      cases pool with
      | nil => rfl
      | cons s pool => exact (parseStep32_eq hct hg hd hb (hI s (by simp))).symm
    · rintro ⟨pool, acc⟩ st hI hs
      exact parseStep_sok hct hI hs
  | throw e => rfl
  | ub => rfl
  | diverge => rfl

end Thpronun
