import Verif.Lemmas.ParserDict

/-! # Abbreviations: helper lemmas -/

namespace Thpronun
open Res Spec

/-- Add a list of edges to a DAG. -/
def addEdges (d : PronunDAG) (es : List (Entry Syl)) : PronunDAG :=
  es.foldl (fun acc x => (DAG.addEdge acc x.key x.target x.val).1) d

@[simp] theorem addAll_nil (d : PronunDAG) : addEdges d [] = d := rfl
@[simp] theorem addAll_cons (d : PronunDAG) (e es) :
    addEdges d (e :: es) = addEdges (d.addEdge e.key e.target e.val).1 es := rfl
theorem addAll_append (d : PronunDAG) (a b) : addEdges d (a ++ b) = addEdges (addEdges d a) b := List.foldl_append

theorem addSylString_eq (d : PronunDAG) (p : Int) (s : SylString) :
    PronunDAG.addSylString d p s = addEdges d (pathEdges p s) := by
  induction s generalizing d p with
  | nil => rfl
  | cons a s ih => rw [PronunDAG.addSylString, pathEdges, addAll_cons, ih]

theorem exceptDag_eq (s : PState) (strs : List SylString) :
    exceptDag s strs = addEdges s.dag (strs.flatMap fun x => pathEdges s.pos (SylString.shiftEndPos x s.pos)) := by
  unfold exceptDag
  generalize s.dag = d
  induction strs generalizing d with
  | nil => rfl
  | cons a l ih => rw [List.foldl_cons, ih, addSylString_eq, List.flatMap_cons, addAll_append]

theorem addSyl_eq (s : PState) (e : Emit) : addSyl s e.p e.pos = addEdges s.dag (sylEdges s.pos e) := by
  unfold addSyl sylEdges
  cases h : e.p.pre with
  | none => rfl
  | some pre => simp only [addAll_cons, addAll_nil, spanPos_eq]

section
variable {ct : CType} {w : U16Str}

def ConsAt (ct : CType) (w : U16Str) (i : Nat) : Prop := ∃ c, w[i]? = some c ∧ ct.isCons c = true

theorem not_cons_dot (hct : ct.Ok) : ct.isCons ch!"." = false := by
  rw [← Bool.not_eq_true]
  intro h
  have := hct.cons _ h
  omega

/-- What the scan of a possible abbreviation finds. -/
def Scan (ct : CType) (w : U16Str) (p t : Nat) : Option (Nat × Nat × Bool) → Prop
  | none => ∃ j, p ≤ j ∧ j < t ∧ (∀ i, p ≤ i → i < j → ConsAt ct w i) ∧ ∃ c, w[j]? = some c ∧
      ((ct.isCons c = false ∧ c ≠ ch!".") ∨ (j = p + 4 ∧ ct.isCons c = true))
  | some (e, n, true) => n ≤ 4 ∧ e = p + n + 1 ∧ e ≤ t ∧ (∀ i, p ≤ i → i < p + n → ConsAt ct w i) ∧
      w[p + n]? = some ch!"."
  | some (e, n, false) => e = t ∧ e = p + n ∧ ∀ i, p ≤ i → i < t → ConsAt ct w i

theorem abbrScan_spec {p t : Nat} (ht : t ≤ w.length) : ∀ (rest : U16Str) (n : Nat), rest = w.drop (p + n) →
    p + n ≤ t → n ≤ 4 → (∀ i, p ≤ i → i < p + n → ConsAt ct w i) →
    (abbrScan ct rest (p + n) t n).Sat (Scan ct w p t)
  | [], n, hr, h1, h2, h3 => by
    have hl : w.length ≤ p + n := List.drop_eq_nil_iff.mp hr.symm
    rw [abbrScan, if_neg (by omega)]
    exact ⟨by omega, rfl, fun i hi1 hi2 => h3 i hi1 (by omega)⟩
  | c :: cs, n, hr, h1, h2, h3 => by
    have hc : w[p + n]? = some c := by
      have : (w.drop (p + n))[0]? = some c := by rw [← hr]; rfl
      simpa using this
    have hcs : cs = w.drop (p + (n + 1)) := by
      have : (w.drop (p + n)).tail = cs := by rw [← hr]; rfl
      rw [← this, List.tail_drop]; rfl
    rw [abbrScan]
    by_cases hlt : p + n < t
    · rw [if_pos hlt]
      by_cases hcc : ct.isCons c = true
      · rw [if_pos hcc]
        by_cases hn : n + 1 > 4
        · rw [if_pos hn]
          exact ⟨p + n, by omega, hlt, h3, c, hc, .inr ⟨by omega, hcc⟩⟩
        · rw [if_neg hn]
          refine abbrScan_spec ht cs (n + 1) hcs (by omega) (by omega) fun i hi1 hi2 => ?_
          rcases Nat.lt_or_ge i (p + n) with h | h
          · exact h3 i hi1 h
          · have : i = p + n := by omega
            subst this; exact ⟨c, hc, hcc⟩
      · rw [if_neg hcc]
        by_cases hd : c = ch!"."
        · rw [if_pos hd]
          exact ⟨h2, rfl, by omega, h3, by rw [hc, hd]⟩
        · rw [if_neg hd]
          exact ⟨p + n, by omega, hlt, h3, c, hc, .inl ⟨by simpa using hcc, hd⟩⟩
    · rw [if_neg hlt]
      exact ⟨by omega, rfl, fun i hi1 hi2 => h3 i hi1 (by omega)⟩

/-- The edge of a letter of an abbreviation. -/
def letterEdge (w : U16Str) (p n e : Nat) (i : Nat) : Res (Entry Syl) := do
  let c ← strAt w (p + i)
  let q : Int := if i + 1 = n then e else ((p + i + 1 : Nat) : Int)
  pure (⟨((p + i : Nat) : Int), q, letterName (← initConsSound c) (← initConsClass c) q⟩ : Entry Syl)

theorem abbrDag_letters (hct : ct.Ok) {p n e : Nat} (hc : ∀ i, p ≤ i → i < p + n → ConsAt ct w i)
    (he : e = p + n ∨ (e = p + n + 1 ∧ w[p + n]? = some ch!".")) :
    ∀ (k i fuel : Nat) (d : PronunDAG), k + i = n → 0 < k → k < fuel →
    ∃ new, SylString.mapRes (letterEdge w p n e) (List.range' i k) = .ok new ∧
      abbrDag ct w fuel (p + i) e d = .ok (addEdges d new)
  | 0, i, fuel, d, h1, h2, h3 => by omega
  | k + 1, i, fuel, d, h1, h2, h3 => by
    obtain ⟨fuel, rfl⟩ : ∃ m, fuel = m + 1 := ⟨fuel - 1, by omega⟩
    obtain ⟨c, hci, hcc⟩ := hc (p + i) (by omega) (by omega)
    obtain ⟨snd, hs, -⟩ := (sat_iff _ _).mp (initConsSound_sat hct hcc)
    obtain ⟨cls, hk, -⟩ := (sat_iff _ _).mp (initConsClass_sat hct hcc)
    have hpe : p + i < e := by omega
    rw [List.range'_succ, SylString.mapRes, abbrDag, if_pos hpe, strAt_eq hci, ok_bind, if_pos hcc, letterEdge,
      strAt_eq hci, ok_bind, hs, hk]
    simp only [ok_bind, pure_eq]
    have hname : ∀ q : Int, Syl.mk5 snd SC.NONE VW.AUU .NONE
        (if InitConsClass.HIGH = cls then .CHATTAWA else .SAMAN) q = letterName snd cls q := by
      intro q
      simp only [Syl.mk5, letterName, eq_comm]
    by_cases hlast : k = 0
    · subst hlast
      have hn : i + 1 = n := by omega
      have hend : (if p + i + 1 < e then do
            if ct.isCons (← strAt w (p + i + 1)) then pure (p + i + 1) else pure (p + i + 2)
          else pure (p + i + 1) : Res Nat) = .ok e := by
        rcases he with he | ⟨he, hdot⟩
        · rw [if_neg (by omega), pure_eq]; congr 1; omega
        · rw [if_pos (by omega), strAt_eq (by rw [show p + i + 1 = p + n by omega]; exact hdot), ok_bind,
            not_cons_dot hct]
          simp only [Bool.false_eq_true, if_false, pure_eq]
          congr 1; omega
      refine ⟨_, rfl, ?_⟩
      have hfin : ∀ dd : PronunDAG, abbrDag ct w fuel e e dd = .ok dd := by
        intro dd
        obtain ⟨fuel, rfl⟩ : ∃ m, fuel = m + 1 := ⟨fuel - 1, by omega⟩
        rw [abbrDag, if_neg (by omega)]
      have hend' := hend
      by_cases h1 : p + i + 1 < e
      · have h4 : ct.isCons ch!"." = false := not_cons_dot hct
        have h5 : w[p + i + 1]? = some ch!"." := by
          rcases he with he | ⟨he, hdot⟩
          · omega
          · rw [show p + i + 1 = p + n by omega]; exact hdot
        rw [if_pos h1, strAt_eq h5, ok_bind, h4]
        simp only [Bool.false_eq_true, if_false]
        have h6 : p + i + 2 = e := by omega
        rw [h6, hfin, if_pos hn, hname]
        rfl
      · rw [if_neg h1]
        have h6 : p + i + 1 = e := by omega
        rw [h6, hfin, if_pos hn, hname]
        rfl
    · obtain ⟨c', hci', hcc'⟩ := hc (p + i + 1) (by omega) (by omega)
      have hn : ¬ i + 1 = n := by omega
      have h1 : p + i + 1 < e := by omega
      rw [if_pos h1, strAt_eq hci', ok_bind, if_pos hcc']
      obtain ⟨new, hnew, hd⟩ := abbrDag_letters hct hc he k (i + 1) fuel
        (d.addEdge ((p + i : Nat) : Int) ((p + i + 1 : Nat) : Int) (letterName snd cls ((p + i + 1 : Nat) : Int))).1
        (by omega) (by omega) (by omega)
      rw [hnew]
      refine ⟨_, rfl, ?_⟩
      rw [hname, if_neg hn]
      exact hd

/-- `abbrEdges` by letters. -/
theorem abbrEdges_letters {p e n : Nat} (h : w[p]? ≠ some ch!".")
    (hn : n = if w[e - 1]? = some ch!"." then e - p - 1 else e - p) :
    abbrEdges w p e = SylString.mapRes (letterEdge w p n e) (List.range' 0 n) := by
  subst hn
  rw [abbrEdges, if_neg h]
  dsimp only
  rw [List.range_eq_range']
  rfl

/-- The result of `findAbbr`. -/
def AbbrState (ct : CType) (w : U16Str) (s : PState) : Option PState → Prop
  | none => ¬ ∃ e, IsAbbr ct w s.pos s.stop e
  | some s' => ∃ new, IsAbbr ct w s.pos s.stop s'.pos ∧ abbrEdges w s.pos s'.pos = .ok new ∧
      s' = ⟨s'.pos, s.stop, addEdges s.dag new, false⟩

theorem findAbbr_sat (hct : ct.Ok) (s : PState) (hp : s.pos < s.stop) (ht : s.stop ≤ w.length) :
    (findAbbr ct w s).Sat (AbbrState ct w s) := by
  unfold findAbbr
  have hal : (abbrAllowed w s.pos).Sat fun b => b = true ↔
      (s.pos = 0 ∨ w[s.pos - 1]? = some ch!" " ∨ w[s.pos - 1]? = some ch!".") := by
    unfold abbrAllowed
    by_cases h0 : s.pos > 0
    · rw [if_pos h0]
      have hl : s.pos - 1 < w.length := by omega
      rw [strAt_eq (List.getElem?_eq_getElem hl), ok_bind, List.getElem?_eq_getElem hl]
      have : s.pos ≠ 0 := by omega
      simp [this]
    · rw [if_neg h0]
      have : s.pos = 0 := by omega
      simp [this]
  refine hal.bind fun b hb => ?_
  cases b with
  | false =>
    rw [if_neg (by simp)]
    rintro ⟨e, he⟩
    exact absurd (hb.mpr he.start) (by simp)
  | true =>
    rw [if_pos rfl]
    have hstart := hb.mp rfl
    refine (abbrScan_spec (p := s.pos) ht (w.drop s.pos) 0 rfl (by omega) (by omega) (by omega)).bind fun r hr => ?_
    match r, hr with
    | none, ⟨j, j1, j2, j3, c, jc, j4⟩ =>
      rintro ⟨e, -, hle, ⟨n, hn, rfl, hcons, hdot⟩ | ⟨rfl, h1, c', hc', hcc'⟩⟩
      · rcases Nat.lt_trichotomy (s.pos + n) j with h | h | h
        · obtain ⟨c', hc', hcc'⟩ := j3 (s.pos + n) (by omega) h
          rw [hdot] at hc'; cases hc'
          rw [not_cons_dot hct] at hcc'; cases hcc'
        · rw [← h, hdot] at jc; cases jc
          rcases j4 with ⟨-, h⟩ | ⟨-, h⟩
          · exact h rfl
          · rw [not_cons_dot hct] at h; cases h
        · obtain ⟨c', hc', hcc'⟩ := hcons j j1 h
          rw [jc] at hc'; cases hc'
          rcases j4 with ⟨h, -⟩ | ⟨h, -⟩
          · rw [h] at hcc'; cases hcc'
          · omega
      · have : j = s.pos := by omega
        rw [this, hc'] at jc
        cases jc
        rcases j4 with ⟨h, -⟩ | ⟨h, -⟩
        · rw [h] at hcc'; cases hcc'
        · omega
    | some (e, n, true), ⟨h1, h2, h3, h4, h5⟩ =>
      simp only [Bool.true_eq_false, and_false, if_false]
      have habbr : IsAbbr ct w s.pos s.stop e := ⟨hstart, h3, .inl ⟨n, h1, h2, h4, h5⟩⟩
      by_cases hn : n = 0
      · subst hn
        have h5' : w[s.pos]? = some ch!"." := by simpa using h5
        have he : e = s.pos + 1 := by omega
        have : abbrDag ct w (w.length + 2) s.pos e s.dag =
            .ok (addEdges s.dag [⟨s.pos, e, Syl.lit e [ch!"."]⟩]) := by
          rw [abbrDag, if_pos (by omega), strAt_eq h5', ok_bind, not_cons_dot hct]
          simp only [Bool.false_eq_true, if_false]
          rw [abbrDag, if_neg (by omega)]
          have hl : s.pos < w.length := by omega
          have htk : (w.drop s.pos).take 1 = [ch!"."] := by
            rw [List.drop_eq_getElem_cons hl]
            rw [List.getElem?_eq_getElem hl] at h5'
            rw [Option.some.inj h5', List.take_succ_cons, List.take_zero]
          rw [htk, he]
          simp only [addAll_cons, addAll_nil]
          push_cast; rfl
        rw [this, ok_bind]
        refine ⟨_, habbr, ?_, rfl⟩
        rw [abbrEdges, if_pos h5']
      · have hnd : w[s.pos]? ≠ some ch!"." := by
          intro h
          obtain ⟨c, hc, hcc⟩ := h4 s.pos le_rfl (by omega)
          rw [h] at hc; cases hc
          rw [not_cons_dot hct] at hcc; cases hcc
        obtain ⟨new, hnew, hd⟩ := abbrDag_letters hct h4 (.inr ⟨h2, h5⟩) n 0 (w.length + 2) s.dag (by omega)
          (by omega) (by omega)
        replace hd : abbrDag ct w (w.length + 2) s.pos e s.dag = .ok (addEdges s.dag new) := hd
        rw [hd, ok_bind]
        refine ⟨new, habbr, ?_, rfl⟩
        show abbrEdges w s.pos e = _
        rw [abbrEdges_letters (n := n) hnd]
        · exact hnew
        · rw [if_pos (by rw [show e - 1 = s.pos + n by omega]; exact h5)]; omega
    | some (e, n, false), ⟨h1, h2, h3⟩ =>
      simp only [and_true]
      by_cases hn : n > 1
      · rw [if_pos hn]
        rintro ⟨e', -, hle, ⟨m, hm, rfl, hcons, hdot⟩ | ⟨rfl, h', -⟩⟩
        · obtain ⟨c, hc, hcc⟩ := h3 (s.pos + m) (by omega) (by omega)
          rw [hdot] at hc; cases hc
          rw [not_cons_dot hct] at hcc; cases hcc
        · omega
      · rw [if_neg hn]
        have hn1 : n = 1 := by omega
        subst hn1
        have hcp := h3 s.pos le_rfl (by omega)
        have hnd : ∀ i, ConsAt ct w i → w[i]? ≠ some ch!"." := by
          intro i hi h
          obtain ⟨c, hc, hcc⟩ := hi
          rw [h] at hc; cases hc
          rw [not_cons_dot hct] at hcc; cases hcc
        obtain ⟨new, hnew, hd⟩ := abbrDag_letters hct (p := s.pos) (n := 1) (e := e)
          (fun i hi1 hi2 => h3 i hi1 (by omega)) (.inl h2) 1 0 (w.length + 2) s.dag (by omega) (by omega) (by omega)
        replace hd : abbrDag ct w (w.length + 2) s.pos e s.dag = .ok (addEdges s.dag new) := hd
        rw [hd, ok_bind]
        refine ⟨new, ⟨hstart, h1.le, .inr ⟨h2, h1, hcp⟩⟩, ?_, rfl⟩
        show abbrEdges w s.pos e = _
        rw [abbrEdges_letters (n := 1) (hnd _ hcp)]
        · exact hnew
        · rw [if_neg (by rw [show e - 1 = s.pos by omega]; exact hnd _ hcp)]; omega

end
end Thpronun
