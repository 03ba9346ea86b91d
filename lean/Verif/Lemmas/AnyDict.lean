import Verif.Spec.AnyDict
import Verif.Lemmas.BadDict

/-! # Parsing with a dictionary of any origin -/

namespace Thpronun
open Res Spec DAG

/-- `Match.getData` at a word of the trie. -/
def dataOf (d : Dict) (v : U16Str) : Option (Res Str) :=
  d.mTrie.bind fun t => (t.get v).map fun i => if i = -1 then .ok [] else d.getData i

theorem cString_ok {l s : Str} : Dict.cString l = .ok s ↔ ∃ post, l = s ++ 0 :: post ∧ 0 ∉ s := by
  induction l generalizing s with
  | nil => simp [Dict.cString]
  | cons b l ih =>
    rw [Dict.cString]
    by_cases hb : b = 0
    · rw [if_pos hb, Res.ok.injEq]
      subst hb
      constructor
      · rintro rfl; exact ⟨l, rfl, by simp⟩
      · rintro ⟨post, h, h0⟩
        cases s with
        | nil => rfl
        | cons a s => rw [List.cons_append, List.cons.injEq] at h; exact absurd (by simp [← h.1]) h0
    · rw [if_neg hb]
      simp only [bind_eq_ok, pure_eq, Res.ok.injEq]
      constructor
      · rintro ⟨s', h, rfl⟩
        obtain ⟨post, rfl, h0⟩ := ih.mp h
        exact ⟨post, rfl, by simp [h0, Ne.symm hb]⟩
      · rintro ⟨post, h, h0⟩
        cases s with
        | nil => rw [List.nil_append, List.cons.injEq] at h; exact absurd h.1 hb
        | cons a s =>
          rw [List.cons_append, List.cons.injEq] at h
          exact ⟨s, ih.mpr ⟨post, h.2, fun h => h0 (by simp [h])⟩, by rw [h.1]⟩

theorem cString_ub (l : Str) : (∃ s, Dict.cString l = .ok s) ∨ Dict.cString l = .ub := by
  induction l with
  | nil => exact .inr rfl
  | cons b l ih =>
    rw [Dict.cString]
    by_cases hb : b = 0
    · rw [if_pos hb]; exact .inl ⟨_, rfl⟩
    · rw [if_neg hb]
      rcases ih with ⟨s, h⟩ | h
      · rw [h]; exact .inl ⟨_, rfl⟩
      · rw [h]; exact .inr rfl

theorem stored_iff {d : Dict} {v : U16Str} {s : Str} : Stored d v s ↔ dataOf d v = some (.ok s) := by
  unfold Stored Numbered dataOf
  cases ht : d.mTrie with
  | none => simp
  | some t =>
    simp only [Option.bind_some, Option.map_eq_some_iff, Option.some.injEq, exists_eq_left']
    refine exists_congr fun i => and_congr_right fun _ => ?_
    by_cases hi : i = -1
    · simp [hi, eq_comm]
    · rw [if_neg hi]
      simp only [hi, false_and, false_or, ne_eq, not_false_iff, true_and]
      unfold Dict.getData
      cases d.mData with
      | none => simp
      | some bank =>
        simp only [Option.some.injEq]
        by_cases hn : i < 0
        · rw [if_pos hn]
          constructor
          · rintro ⟨b, pre, post, -, -, h, -⟩; omega
          · intro h; cases h
        · rw [if_neg hn, cString_ok]
          constructor
          · rintro ⟨_, pre, post, rfl, rfl, h, h0⟩
            have : i.toNat = pre.length := by omega
            exact ⟨post, by rw [this, List.append_assoc, List.drop_left], h0⟩
          · rintro ⟨post, h, h0⟩
            have hlen : i.toNat ≤ bank.length := by
              by_contra hc
              rw [List.drop_of_length_le (by omega)] at h
              simp at h
            refine ⟨bank, bank.take i.toNat, post, rfl, ?_, ?_, h0⟩
            · rw [List.append_assoc, ← h, List.take_append_drop]
            · rw [List.length_take]; omega

theorem dataOf_cases (d : Dict) (v : U16Str) : dataOf d v = none ∨ (∃ s, dataOf d v = some (.ok s)) ∨ dataOf d v = some .ub := by
  unfold dataOf
  cases d.mTrie with
  | none => exact .inl rfl
  | some t =>
    rw [Option.bind_some]
    cases t.get v with
    | none => exact .inl rfl
    | some i =>
      right
      rw [Option.map_some]
      by_cases hi : i = -1
      · rw [if_pos hi]; exact .inl ⟨_, rfl⟩
      · rw [if_neg hi]
        unfold Dict.getData
        cases d.mData with
        | none => exact .inr rfl
        | some bank =>
          simp only
          by_cases hn : i < 0
          · rw [if_pos hn]; exact .inr rfl
          · rw [if_neg hn]
            rcases cString_ub (bank.drop i.toNat) with ⟨s, h⟩ | h
            · rw [h]; exact .inl ⟨_, rfl⟩
            · rw [h]; exact .inr rfl

theorem numbered_iff {d : Dict} {v : U16Str} : (∃ i, Numbered d v i) ↔ dataOf d v ≠ none := by
  unfold Numbered dataOf
  cases d.mTrie with
  | none => simp
  | some t => cases h : t.get v <;> simp [h]

theorem astray_iff {d : Dict} {v : U16Str} : Astray d v ↔ dataOf d v = some .ub := by
  unfold Astray
  rw [numbered_iff]
  simp only [stored_iff]
  rcases dataOf_cases d v with h | ⟨s, h⟩ | h <;> simp [h]

/-! ## A dictionary with given contents -/

/-- A trie and a data bank for a list of words and data. -/
def bankFor : List (U16Str × Str) → Trie × Str
  | [] => ([], [])
  | (v, s) :: es => ((v, ((bankFor es).2.length : Int)) :: (bankFor es).1, (bankFor es).2 ++ s ++ [0])

theorem bankFor_look (es : List (U16Str × Str)) (h : ∀ e ∈ es, 0 ∉ e.2) (more : Str) :
    DictLook ⟨some (bankFor es).1, some ((bankFor es).2 ++ more)⟩ fun v => es.lookup v := by
  refine ⟨_, rfl, fun v i hi => ?_, fun v u hp => ?_, fun v hv => ?_, fun v s hs => ?_⟩
  · exact List.any_eq_true.mpr ⟨_, get_mem hi, by simp⟩
  · obtain ⟨e, he, hp⟩ := List.any_eq_true.mp hp
    refine List.any_eq_true.mpr ⟨e, he, ?_⟩
    rw [List.isPrefixOf_iff_prefix] at hp ⊢
    exact (List.prefix_append _ _).trans hp
  · unfold Trie.get
    induction es with
    | nil => rfl
    | cons e es ih =>
      obtain ⟨a, x⟩ := e
      simp only [bankFor, List.lookup_cons] at hv ⊢
      cases hb : v == a with
      | true => rw [hb] at hv; cases hv
      | false => rw [hb] at hv; exact ih (fun e he => h e (by simp [he])) hv
  · unfold Trie.get
    induction es generalizing more with
    | nil => cases hs
    | cons e es ih =>
      obtain ⟨a, x⟩ := e
      simp only [bankFor, List.lookup_cons] at hs ⊢
      cases hb : v == a with
      | true =>
        rw [hb] at hs
        cases hs
        refine ⟨_, rfl, .inr ⟨by omega, ?_⟩⟩
        simp only [Dict.getData]
        rw [if_neg (by omega), cString_ok]
        refine ⟨more, ?_, h (a, s) (by simp)⟩
        simp [List.append_assoc]
      | false =>
        rw [hb] at hs
        obtain ⟨i, h1, h2⟩ := ih (fun e he => h e (by simp [he])) (x ++ [0] ++ more) hs
        exact ⟨i, h1, by simpa [Dict.getData, List.append_assoc] using h2⟩

theorem exists_dict (es : List (U16Str × Str)) (h : ∀ e ∈ es, 0 ∉ e.2) : ∃ d, Holds (some d) fun v => es.lookup v := by
  refine ⟨⟨some (bankFor es).1, some ((bankFor es).2 ++ [])⟩, fun text pos hp => ?_⟩
  simpa [Match.new, prefixMatches] using reports _ _ (bankFor_look es h []) text pos 0 hp

/-! ## The words that are met -/

/-- The words of a dictionary that stand at a place, with what is stored for them. -/
def metAt (d : Dict) (text : List Nat) (pos k : Nat) : List (Nat × Res Str) :=
  (List.range' (k + 1) (text.length - pos - k)).filterMap fun n => (dataOf d ((text.drop pos).take n)).map fun s => (pos + n, s)

section
variable {ct : CType} {w : U16Str} {brk : List Int} {look : List Nat → Option Str}

/-- The states of the accepted words, one after the other. -/
def metStates (s : PState) : List (Nat × Res Str) → Res (List PState)
  | [] => .ok []
  | m :: l => do
    let strs ← SylString.makeSylStrings (← m.2)
    let rest ← metStates s l
    pure (⟨m.1, s.stop, exceptDag s strs, false⟩ :: rest)

theorem exceptLoop_any (s : PState) (hs : s.stop ≤ w.length) (d : Dict) (t : Trie) (ht : d.mTrie = some t) (pos k : Nat)
    (hk : pos + k ≤ w.length) {fuel : Nat} (hf : w.length - pos - k < fuel) :
    exceptLoop ct w s fuel ⟨w, pos, pos + k, d, some ((w.drop pos).take k)⟩ =
      metStates s ((metAt d w pos k).filter fun m => accepted ct w s.stop (m.1, [])) := by
  have h1 : ∀ v i, t.get v = some i → t.hasPrefix v = true := fun v i hi => List.any_eq_true.mpr ⟨_, get_mem hi, by simp⟩
  have h2 : ∀ v u, t.hasPrefix (v ++ u) = true → t.hasPrefix v = true := by
    intro v u hp
    obtain ⟨e, he, hp⟩ := List.any_eq_true.mp hp
    refine List.any_eq_true.mpr ⟨e, he, ?_⟩
    rw [List.isPrefixOf_iff_prefix] at hp ⊢
    exact (List.prefix_append _ _).trans hp
  have hl : ∀ v, (t.get v).isSome = (lookWords t v).isSome := fun v => by unfold lookWords; simp
  have hnone : ∀ v, lookWords t v = none → dataOf d v = none := by
    intro v hv
    unfold lookWords at hv
    rw [Option.map_eq_none_iff] at hv
    simp [dataOf, ht, hv]
  unfold metAt
  generalize hm : w.length - pos - k = m at hf
  induction m using Nat.strong_induction_on generalizing k fuel with
  | _ m ih =>
  obtain ⟨fuel, rfl⟩ : ∃ n, fuel = n + 1 := ⟨fuel - 1, by omega⟩
  have htk : ∀ n, (w.drop pos).take k ++ ((w.drop pos).drop k).take n = (w.drop pos).take (k + n) :=
    fun n => by rw [List.take_add]
  have hf : (Match.mk w pos (pos + k) d (some ((w.drop pos).take k))).findNext =
      (let r := Match.findLoop t (pos + k) ((w.drop pos).take k) ((w.drop pos).drop k)
       (⟨w, pos, r.1, d, some r.2.1⟩, r.2.2)) := by
    simp only [Match.findNext, ht, List.drop_drop]
  have hlen : ((w.drop pos).drop k).length = m := by simp; omega
  rcases findLoop_spec t (lookWords t) h1 h2 hl (pos + k) ((w.drop pos).take k) ((w.drop pos).drop k) with
    ⟨n, n1, n2, n3, n4, n5⟩ | ⟨n, n2, n3, n4, n5⟩
  · rw [n3, htk] at hf
    simp only at hf
    rw [htk] at n4
    rw [hlen] at n2
    rw [← hl] at n4
    obtain ⟨i, hi⟩ := Option.isSome_iff_exists.mp n4
    have hdat : dataOf d ((w.drop pos).take (k + n)) = some (if i = -1 then .ok [] else d.getData i) := by
      simp [dataOf, ht, hi]
    generalize hx : (if i = -1 then Res.ok [] else d.getData i) = x at hdat
    have hd : (Match.mk w pos (pos + k + n) d (some ((w.drop pos).take (k + n)))).getData = x := by
      simp only [Match.getData, ht, hi]
      exact hx
    have heq : (List.range' (k + 1) m).filterMap (fun n =>
        (dataOf d ((w.drop pos).take n)).map fun s => (pos + n, s)) =
        (pos + k + n, x) :: (List.range' (k + n + 1) (m - n)).filterMap (fun n =>
        (dataOf d ((w.drop pos).take n)).map fun s => (pos + n, s)) := by
      have e : m = (n - 1) + ((m - n) + 1) := by omega
      conv_lhs => rw [e]
      rw [range'_filterMap_zero, List.range'_succ, List.filterMap_cons]
      · have e2 : k + 1 + (n - 1) = k + n := by omega
        rw [e2, hdat]
        simp only [Option.map_some, Nat.add_assoc]
      · intro j hj1 hj2
        have := n5 (j - k) (by omega) (by omega)
        rw [htk, show k + (j - k) = j by omega] at this
        rw [hnone _ this]; rfl
    have hr := ih (m - n) (by omega) (k + n) (by omega) (fuel := fuel) (by omega) (by omega)
    rw [← Nat.add_assoc] at hr
    rw [heq, exceptLoop_succ s fuel _ _ hf, hd, hr]
    have hcur : (Match.mk w pos (pos + k + n) d (some ((w.drop pos).take (k + n)))).getCurPos = pos + k + n := rfl
    rw [hcur]
    by_cases h3 : pos + k + n > s.stop
    · rw [if_pos h3, List.filter_cons_of_neg (by simp [accepted]; omega)]
    · rw [if_neg h3, skipTest_eq s _ [] hs (by rw [hcur]; omega), ok_bind, hcur]
      cases ha : accepted ct w s.stop (pos + k + n, []) with
      | false =>
        rw [List.filter_cons_of_neg (by simp [ha])]
        rfl
      | true =>
        rw [List.filter_cons_of_pos (by simpa using ha), metStates]
        rfl
  · have hnil : (List.range' (k + 1) m).filterMap (fun n =>
        (dataOf d ((w.drop pos).take n)).map fun s => (pos + n, s)) = [] := by
      rw [List.filterMap_eq_nil_iff]
      intro j hj
      rw [List.mem_range'_1] at hj
      have := n5 (j - k) (by omega) (by omega)
      rw [htk, show k + (j - k) = j by omega] at this
      rw [hnone _ this]; rfl
    rw [hnil, exceptLoop, hf, n3]
    rfl

/-- The exceptions found with a dictionary of any origin. -/
theorem exceptions_any (d : Dict) (s : PState) (hs : s.stop ≤ w.length) (hp : s.pos ≤ w.length) :
    exceptions ct w (some d) s = metStates s ((metAt d w s.pos 0).filter fun m => accepted ct w s.stop (m.1, [])) := by
  cases ht : d.mTrie with
  | none =>
    have : metAt d w s.pos 0 = [] := by
      unfold metAt
      rw [List.filterMap_eq_nil_iff]
      intro n _
      simp [dataOf, ht]
    rw [this, exceptions_noTrie d ht]
    rfl
  | some t =>
    have := exceptLoop_any (ct := ct) s hs d t ht s.pos 0 hp (fuel := w.length + 1) (by omega)
    rw [← this]
    simp [exceptions, findExceptions, Match.new, ht]

/-- What is stored for a word, if anything is. -/
def storedOf (d : Dict) (v : U16Str) : Option Str :=
  match dataOf d v with
  | some (.ok s) => some s
  | _ => none

theorem storedOf_iff {d : Dict} {v : U16Str} {s : Str} : storedOf d v = some s ↔ Stored d v s := by
  rw [stored_iff]
  unfold storedOf
  rcases dataOf_cases d v with h | ⟨x, h⟩ | h <;> simp [h]

/-- There is a dictionary with just the words that have something stored. -/
theorem exists_stored (d : Dict) : ∃ d', Holds (some d') (storedOf d) := by
  have key : ∀ (L : List U16Str) (f : U16Str → Option Str), (∀ v, v ∉ L → f v = none) →
      (fun v => (L.filterMap fun v => (f v).map fun s => (v, s)).lookup v) = f := by
    intro L
    induction L with
    | nil => exact fun f hf => funext fun v => (hf v (by simp)).symm
    | cons a L ih =>
      intro f hf
      funext v
      rw [List.filterMap_cons]
      cases hfa : f a with
      | none =>
        simp only [Option.map_none]
        exact congrFun (ih f fun u hu => by
          by_cases hua : u = a
          · rw [hua, hfa]
          · exact hf u (by simp [hu, hua])) v
      | some s =>
        simp only [Option.map_some, List.lookup_cons]
        by_cases hva : v = a
        · subst hva; simp [hfa]
        · rw [beq_eq_false_iff_ne.mpr hva]
          have := congrFun (ih (fun u => if u ∈ L then f u else none) fun u hu => by simp [hu]) v
          have e : (L.filterMap fun v => (f v).map fun s => (v, s)) =
              L.filterMap fun v => ((if v ∈ L then f v else none).map fun s => (v, s)) :=
            List.filterMap_congr fun u hu => by rw [if_pos hu]
          simp only
          rw [e, this]
          split
          · rfl
          · rename_i hv
            exact (hf v (by simp [hva, hv])).symm
  have hsup : ∀ v, v ∉ (d.mTrie.getD []).map (fun e => e.1) → storedOf d v = none := by
    intro v hv
    unfold storedOf dataOf
    cases ht : d.mTrie with
    | none => rfl
    | some t =>
      rw [ht, Option.getD_some] at hv
      cases hg : t.get v with
      | none => simp [hg]
      | some i => exact absurd (get_isSome.mp (by rw [hg]; rfl)) hv
  obtain ⟨d', h⟩ := exists_dict (((d.mTrie.getD []).map fun e => e.1).filterMap fun v => (storedOf d v).map fun s => (v, s)) (by
    intro e he
    obtain ⟨v, -, hv⟩ := List.mem_filterMap.mp he
    obtain ⟨s, hs, rfl⟩ := Option.map_eq_some_iff.mp hv
    -- stored data end at the first NUL
    obtain ⟨i, -, ⟨-, rfl⟩ | ⟨-, _, _, _, -, -, -, h0⟩⟩ := storedOf_iff.mp hs
    · simp
    · exact h0)
  rw [key _ _ hsup] at h
  exact ⟨d', h⟩

/-- A dictionary without words that lead astray is the map of what it stores. -/
theorem holds_stored (d : Dict) (h : ∀ v, dataOf d v ≠ some .ub) : Holds (some d) (storedOf d) := by
  intro text pos hp
  cases ht : d.mTrie with
  | none =>
    have : prefixMatches (storedOf d) text pos = [] := by
      unfold prefixMatches
      rw [List.filterMap_eq_nil_iff]
      intro n _
      simp [storedOf, dataOf, ht]
    rw [this]
    refine .stop _ ?_ ?_ <;> simp [Match.findNext, Match.new, ht]
  | some t =>
    have hl : DictLook d (storedOf d) := by
      refine ⟨t, ht, fun v i hi => ?_, fun v u hp => ?_, fun v hv => ?_, fun v s hs => ?_⟩
      · exact List.any_eq_true.mpr ⟨_, get_mem hi, by simp⟩
      · obtain ⟨e, he, hp⟩ := List.any_eq_true.mp hp
        refine List.any_eq_true.mpr ⟨e, he, ?_⟩
        rw [List.isPrefixOf_iff_prefix] at hp ⊢
        exact (List.prefix_append _ _).trans hp
      · have : dataOf d v = none := by
          rcases dataOf_cases d v with e | ⟨s, e⟩ | e
          · exact e
          · rw [storedOf, e] at hv; cases hv
          · exact absurd e (h v)
        simpa [dataOf, ht] using this
      · have hs := stored_iff.mp (storedOf_iff.mp hs)
        simp only [dataOf, ht, Option.bind_some, Option.map_eq_some_iff] at hs
        obtain ⟨i, hi, hs⟩ := hs
        refine ⟨i, hi, ?_⟩
        by_cases h1 : i = -1
        · rw [if_pos h1] at hs
          cases hs
          exact .inl ⟨h1, rfl⟩
        · rw [if_neg h1] at hs
          exact .inr ⟨h1, hs⟩
    simpa [Match.new, prefixMatches, ht] using reports _ _ hl text pos 0 hp

theorem metStates_ok (s : PState) (l : List (Nat × Str)) : metStates s (l.map fun m => (m.1, .ok m.2)) = wordStates s l := by
  induction l with
  | nil => rfl
  | cons m l ih => rw [List.map_cons, metStates, wordStates, ih]; rfl

theorem meetsAstray_iff {d : Dict} {p : Nat} : MeetsAstray ct w brk d p ↔ ∃ t q, IsStop ct w brk p t ∧ p < q ∧
    accepted ct w t (q, []) = true ∧ dataOf d (piece w p q) = some .ub := by
  have hs : ∀ q, StartAt ct w w.length q ↔ (w[q]?).any (isSylStart ct) = true := by
    intro q
    unfold StartAt At
    cases h : w[q]? with
    | none => simp
    | some c =>
      have := (List.getElem?_eq_some_iff.mp h).1
      simp [this, isSylStart]
  unfold MeetsAstray
  simp only [tokenTo_iff, astray_iff, hs, accepted, Bool.and_eq_true, decide_eq_true_eq, Bool.or_eq_true, and_assoc]

theorem accepted_met (d : Dict) (p t : Nat) : (metAt d w p 0).filter (fun m => accepted ct w t (m.1, [])) =
    (List.range' 1 (w.length - p)).filterMap fun n =>
      ((dataOf d ((w.drop p).take n)).map fun s => (p + n, s)).filter fun m => accepted ct w t (m.1, []) := by
  unfold metAt
  rw [List.filter_filterMap]
  rfl

theorem accepted_dictAt (d : Dict) (p t : Nat) : dictAt ct w (storedOf d) p t =
    (List.range' 1 (w.length - p)).filterMap fun n =>
      ((storedOf d ((w.drop p).take n)).map fun s => (p + n, s)).filter fun m => accepted ct w t (m.1, []) := by
  unfold dictAt prefixMatches
  rw [List.filter_filterMap]
  rfl

/-- Where no word leads astray, the dictionary gives what it stores. -/
theorem exceptions_stored {d d' : Dict} (hd' : Holds (some d') (storedOf d)) {s : PState} (hst : IsStop ct w brk s.pos s.stop)
    (hp : s.pos ≤ w.length) (h : ¬ MeetsAstray ct w brk d s.pos) :
    exceptions ct w (some d) s = exceptions ct w (some d') s := by
  rw [exceptions_any d s hst.le hp, exceptions_eq hd' s hst.le hp, ← metStates_ok, accepted_met, accepted_dictAt,
    List.map_filterMap]
  congr 1
  refine List.filterMap_congr fun n hn => ?_
  rw [List.mem_range'_1] at hn
  unfold storedOf
  rcases dataOf_cases d ((w.drop s.pos).take n) with e | ⟨x, e⟩ | e
  · rw [e]; rfl
  · rw [e]
    simp only [Option.map_some, Option.filter_some]
    split <;> rfl
  · rw [e]
    simp only [Option.map_some, Option.filter_some, Option.map_none, Option.filter_none]
    rw [if_neg]
    intro ha
    exact h (meetsAstray_iff.mpr ⟨_, s.pos + n, hst, by omega, ha, by rw [piece, Nat.add_sub_cancel_left]; exact e⟩)

/-- Where one does, the search does not return, and if all else can be read, it is undefined. -/
theorem exceptions_astray {d : Dict} {s : PState} (hst : IsStop ct w brk s.pos s.stop)
    (hp : s.pos ≤ w.length) (h : MeetsAstray ct w brk d s.pos) :
    (∀ ex, exceptions ct w (some d) s ≠ .ok ex) ∧
    ((∀ m ∈ dictAt ct w (storedOf d) s.pos s.stop, ∃ strs, SylString.makeSylStrings m.2 = .ok strs) →
      exceptions ct w (some d) s = .ub) := by
  obtain ⟨t, q, h1, h2, h3, h4⟩ := meetsAstray_iff.mp h
  cases h1.unique hst
  rw [exceptions_any d s hst.le hp]
  have hmem : (q, Res.ub) ∈ (metAt d w s.pos 0).filter fun m => accepted ct w s.stop (m.1, []) := by
    refine List.mem_filter.mpr ⟨List.mem_filterMap.mpr ⟨q - s.pos, ?_, ?_⟩, h3⟩
    · rw [List.mem_range'_1]
      simp only [accepted, Bool.and_eq_true, decide_eq_true_eq] at h3
      have := hst.le
      omega
    · unfold piece at h4
      rw [h4]
      simp only [Option.map_some, Option.some.injEq, Prod.mk.injEq, and_true]
      omega
  have hall : ∀ m ∈ (metAt d w s.pos 0).filter (fun m => accepted ct w s.stop (m.1, [])), m.2 = .ub ∨
      ∃ x, m.2 = .ok x ∧ (m.1, x) ∈ dictAt ct w (storedOf d) s.pos s.stop := by
    intro m hm
    rw [accepted_met] at hm
    obtain ⟨n, hn, hm⟩ := List.mem_filterMap.mp hm
    rw [Option.filter_eq_some_iff, Option.map_eq_some_iff] at hm
    obtain ⟨⟨x, hx, rfl⟩, ha⟩ := hm
    rcases dataOf_cases d ((w.drop s.pos).take n) with e | ⟨y, e⟩ | e
    · rw [e] at hx; cases hx
    · rw [e] at hx; cases hx
      refine .inr ⟨y, rfl, ?_⟩
      rw [accepted_dictAt]
      refine List.mem_filterMap.mpr ⟨n, hn, ?_⟩
      rw [Option.filter_eq_some_iff, Option.map_eq_some_iff]
      exact ⟨⟨y, by unfold storedOf; rw [e], rfl⟩, ha⟩
    · rw [e] at hx; cases hx; exact .inl rfl
  generalize (metAt d w s.pos 0).filter (fun m => accepted ct w s.stop (m.1, [])) = l at hmem hall
  constructor
  · induction l with
    | nil => cases hmem
    | cons m l ih =>
      intro ex hex
      rw [metStates] at hex
      simp only [bind_eq_ok] at hex
      obtain ⟨x, hx, strs, -, rest, hrest, -⟩ := hex
      rcases List.mem_cons.mp hmem with rfl | hmem
      · cases hx
      · exact ih hmem (fun m hm => hall m (by simp [hm])) rest hrest
  · intro hr
    induction l with
    | nil => cases hmem
    | cons m l ih =>
      rw [metStates]
      rcases hall m (by simp) with e | ⟨x, e, hx⟩
      · rw [e]; rfl
      · obtain ⟨strs, hstrs⟩ := hr _ hx
        rw [e, ok_bind, hstrs, ok_bind]
        rcases List.mem_cons.mp hmem with rfl | hmem
        · cases e
        · rw [ih hmem fun m hm => hall m (by simp [hm])]
          rfl

theorem expand_stored {d d' : Dict} (hd' : Holds (some d') (storedOf d)) {s : PState} (hs : SOK ct w brk s)
    (h : s.pos < s.stop → ¬ MeetsAstray ct w brk d s.pos) :
    expand ct w (some d) brk s = expand ct w (some d') brk s :=
  expand_congr fun hlt => exceptions_stored hd' (hs.stop hlt) hs.pos (h hlt)

theorem expand_astray {d : Dict} {s : PState} (hs : SOK ct w brk s) (hlt : s.pos < s.stop)
    (h : MeetsAstray ct w brk d s.pos) : (∀ ss, expand ct w (some d) brk s ≠ .ok ss) ∧
    ((∀ m ∈ dictAt ct w (storedOf d) s.pos s.stop, ∃ strs, SylString.makeSylStrings m.2 = .ok strs) →
      expand ct w (some d) brk s = .ub) := by
  have hst := hs.stop hlt
  obtain ⟨h1, h2⟩ := exceptions_astray hst hs.pos h
  have e : ∃ f : List PState → Res (List PState), expand ct w (some d) brk s = exceptions ct w (some d) s >>= f := by
    unfold expand
    rw [if_neg (by omega)]
    unfold tokenStates
    exact ⟨_, rfl⟩
  obtain ⟨f, e⟩ := e
  constructor
  · intro ss hss
    rw [e, bind_eq_ok] at hss
    obtain ⟨ex, hex, -⟩ := hss
    exact h1 ex hex
  · intro hr
    rw [e, h2 hr]
    rfl

/-- If no partial reading meets a word that leads astray, the result is that with the stored words. -/
theorem parse_stored (hct : ct.Ok) {d d' : Dict} (hd' : Holds (some d') (storedOf d))
    (h : ∀ c, Deriv ct w (storedOf d) brk c → ¬ MeetsAstray ct w brk d c.pos) :
    parseU16 ct w (some d) brk = parseU16 ct w (some d') brk := by
  unfold parseU16
  cases hp : parseInit ct w brk with
  | ok pool =>
    rw [ok_bind, ok_bind]
    symm
    refine whileLoop_congr (I := LInv ct w brk (storedOf d)) ?_ ?_ (parseInit_inv hct hp)
    · rintro ⟨pool, acc⟩ hI
      cases pool with
      | nil => rfl
      | cons s pool =>
        rw [parseStep_cons hct, parseStep_cons hct]
        by_cases hl : s.pos ≥ w.length
        · rw [if_pos hl, if_pos hl]
        · obtain ⟨es, hes⟩ := (hI.snd s (by simp)).some
          rw [if_neg hl, if_neg hl, expand_stored hd' (hI.sok s (by simp)) fun _ => h _ hes]
    · rintro ⟨pool, acc⟩ st hI hs
      cases pool with
      | nil => rw [parseStep] at hs; cases hs
      | cons s pool =>
        rw [parseStep_cons hct] at hs
        by_cases hl : s.pos ≥ w.length
        · rw [if_pos hl] at hs
          cases hs
          exact linv_final hct hI hl
        · rw [if_neg hl, bind_eq_ok] at hs
          obtain ⟨ss, hss, hs⟩ := hs
          cases hs
          exact linv_expand hct hI (by omega) (expand_expands hct hd' (hI.sok s (by simp)) (by omega) hss)
  | throw e => rfl
  | ub => rfl
  | diverge => rfl

/-- If one does, the parser does not return; and if all other words that are met can be read, it is undefined. -/
theorem parse_astray (hct : ct.Ok) {d : Dict} (hb : ∀ b ∈ brk, b ≤ w.length) {c : Config}
    (hder : Deriv ct w (storedOf d) brk c) (hmeet : MeetsAstray ct w brk d c.pos) :
    (∀ r, parseU16 ct w (some d) brk ≠ .ok r) ∧ (Met ct w brk (storedOf d) → parseU16 ct w (some d) brk = .ub) := by
  obtain ⟨d', hd'⟩ := exists_stored d
  obtain ⟨e, -, hst, -⟩ := meetsAstray_iff.mp hmeet
  have hlt : c.pos < w.length := by have := hst.lt; have := hst.le; omega
  have hterm := parseU16_term (w := w) (brk := brk) hct (some d)
  unfold parseU16 parseInit at hterm ⊢
  obtain ⟨s, hs⟩ := refresh_ok (ct := ct) (s := ⟨0, 0, DAG.empty, false⟩) hb
  have hpool : parseInit ct w brk = .ok (StatePool.add [] s) := by unfold parseInit; rw [hs]; rfl
  rw [hs, ok_bind] at hterm ⊢
  simp only [pure_eq, ok_bind] at hterm ⊢
  obtain ⟨n, hn, hn'⟩ := iterLoop_of_whileLoop hterm
  rw [← hn]
  have hinv := parseInit_inv (look := storedOf d) hct hpool
  have hpend := pending_start hct hlt (fun h => expands_refresh hst h) hder hpool
  have hsort : Pool (fun _ => True) (StatePool.add [] s) := .add s trivial .empty
  clear hn hterm
  generalize hst0 : (StatePool.add [] s, (DAG.empty : PronunDAG)) = st at hinv hn'
  have h1 : st.1 = StatePool.add [] s := by rw [← hst0]
  rw [← h1] at hpend hsort
  clear hst0 h1 hpool hs s
  induction n generalizing st with
  | zero => exact absurd rfl hn'
  | succ n ih =>
    obtain ⟨pool, acc⟩ := st
    unfold iterLoop at hn' ⊢
    cases pool with
    | nil => obtain ⟨s, hs, -⟩ := hpend; cases hs
    | cons s pool =>
      rw [parseStep_cons hct] at hn' ⊢
      by_cases hp : s.pos ≥ w.length
      · rw [if_pos hp] at hn' ⊢
        exact ih _ (hinv := linv_final hct hinv hp) (hn' := hn') (hpend := pending_final hct hlt hpend hp) (hsort := .pop hsort)
      · rw [if_neg hp] at hn' ⊢
        by_cases hbad : s.pos < s.stop ∧ MeetsAstray ct w brk d s.pos
        · obtain ⟨h1, h2⟩ := expand_astray (hinv.sok s (by simp)) hbad.1 hbad.2
          constructor
          · intro r
            cases hx : expand ct w (some d) brk s with
            | ok ss => exact absurd hx (h1 ss)
            | throw e => intro h; cases h
            | ub => intro h; cases h
            | diverge => intro h; cases h
          · intro hmet
            obtain ⟨es, hes⟩ := (hinv.snd s (by simp)).some
            rw [h2 fun m hm => hmet _ _ hes ((hinv.sok s (by simp)).stop hbad.1) m hm]
            rfl
        · have heq := expand_stored (w := w) (brk := brk) hd' (hinv.sok s (by simp)) fun h1 h2 => hbad ⟨h1, h2⟩
          rw [heq] at hn' ⊢
          cases hss : expand ct w (some d') brk s with
          | ok ss =>
            rw [hss] at hn'
            have hex := expand_expands hct hd' (hinv.sok s (by simp)) (by omega) hss
            refine ih _ (hinv := linv_expand hct hinv (by omega) hex) (hn' := hn')
              (hpend := pending_step hct (fun hm => ?_) hpend hex) (hsort := pool_fold (.pop hsort) ss)
            rcases Nat.lt_or_ge s.pos s.stop with h1 | h1
            · exact absurd ⟨h1, hm.pos ▸ hmeet⟩ hbad
            · exact expands_refresh hst h1 hm hex
          | _ =>
            refine ⟨fun r h => (by cases h), fun hmet => ?_⟩
            rcases expand_throw hct hd' hmet hb (hinv.sok s (by simp))
              (hinv.snd s (by simp)) (by omega) with ⟨ss, hss'⟩ | ⟨hss', c', hc', hstuck⟩
            · rw [hss] at hss'; cases hss'
            · exfalso
              obtain ⟨-, hlen, e', x, hst', -⟩ := hstuck
              obtain ⟨y, hy, c0, hm, hr⟩ := hpend
              have hle : c0.pos ≤ c.pos := by
                clear * - hr hct
                induction hr with
                | refl => exact le_rfl
                | tail _ hs ih => have := hs.lt hct; omega
              have hmin : s.pos ≤ y.pos := by
                rcases List.mem_cons.mp hy with rfl | hy
                · exact le_rfl
                · exact (List.pairwise_cons.mp (C45_min hsort)).1 y hy
              have heq : c.pos = s.pos := by have := hm.pos; omega
              rw [heq] at hmeet
              refine hbad ⟨?_, hmeet⟩
              by_contra h1
              -- a state without token would only be refreshed
              obtain ⟨s', h⟩ := refresh_ok (ct := ct) (s := s) hb
              rw [expand, if_pos (by omega), h] at hss'
              cases hss'

end
end Thpronun
