import Verif.Model.Output
import Verif.Spec.Output
import Verif.Lemmas.SylOrder
import Verif.Lemmas.Raw

/-! # Texts of outputs: helper lemmas -/

namespace Thpronun
open Spec

theorem isBlank_iff (s : Syl) : ceq s Syl.blank = true ↔ IsBlank s := by
  show Syl.eq s Syl.blank = true ↔ _
  rw [Syl.eq_iff]
  exact ⟨fun ⟨h, g⟩ => ⟨h, g (by simp [Syl.isLiteral, h, Syl.blank, Syl.blankAt])⟩,
    fun h => ⟨h.1, fun _ => h.2⟩⟩

theorem groups_ne_nil (l : List Syl) : groups l ≠ [] := by
  cases l with
  | nil => simp [groups]
  | cons s r =>
    rw [groups]
    split
    · simp
    · split <;> simp

theorem joinWith_cons (sep : Nat) (a : Str) (r : List Str) (h : r ≠ []) :
    joinWith sep (a :: r) = a ++ sep :: joinWith sep r := by
  cases r with
  | nil => exact absurd rfl h
  | cons b r => rfl

theorem joinWith_head (sep : Nat) (a b : Str) (r : List Str) :
    joinWith sep ((a ++ b) :: r) = a ++ joinWith sep (b :: r) := by
  cases r with
  | nil => rfl
  | cons c r => simp [joinWith]

theorem joinWith_eq (sep : Nat) (a : Str) (r : List Str) :
    joinWith sep (a :: r) = a ++ r.flatMap fun b => sep :: b := by
  induction r generalizing a with
  | nil => simp [joinWith]
  | cons b r ih => simp [joinWith, ih]

theorem delimLoop_groups (out : SylOutput) (txt : Syl → Str) (delim : Byte) (l : SylString)
    (h : ∀ s ∈ l, ¬ IsBlank s → out s = .ok (txt s)) :
    (delimLoop out delim true l =
      .ok (joinWith 32 ((groups l).map fun g => joinWith delim (g.map txt)))) ∧
    (delimLoop out delim false l =
      .ok (match groups l with
        | [] => []
        | g :: gs => joinWith 32 ((g.flatMap fun s => delim :: txt s) ::
            gs.map fun g => joinWith delim (g.map txt)))) := by
  induction l with
  | nil => simp [delimLoop, groups, joinWith]
  | cons s l ih =>
    obtain ⟨ih1, ih2⟩ := ih fun x hx => h x (List.mem_cons_of_mem _ hx)
    obtain ⟨g, gs, hg⟩ := List.exists_cons_of_ne_nil (groups_ne_nil l)
    by_cases hb : IsBlank s
    · have hb' : ceq s Syl.blank = true := (isBlank_iff s).mpr hb
      simp only [delimLoop, hb', if_true, ih1, Res.ok_bind, Res.pure_eq, groups, hb, Res.ok.injEq,
        List.map_cons, List.map_nil, List.flatMap_nil]
      rw [joinWith_cons _ _ _ (by simp [groups_ne_nil])]
      simp [joinWith, hg]
    · have hb' : ¬ ceq s Syl.blank = true := fun e => hb ((isBlank_iff s).mp e)
      have ho := h s (by simp) hb
      rw [hg] at ih2
      simp only [delimLoop, hb', if_false, ih2, ho, Res.ok_bind, Res.pure_eq, groups, hb, hg,
        Bool.false_eq_true, if_true, Res.ok.injEq, List.map_cons, List.nil_append]
      have key : joinWith delim (txt s :: g.map txt) = txt s ++ g.flatMap fun s => delim :: txt s := by
        rw [joinWith_eq, List.flatMap_map]
      refine ⟨?_, ?_⟩
      · rw [key, joinWith_head]
      · rw [List.flatMap_cons, joinWith_head]; simp

theorem linesOf_ok (f : SylString → Res Str) (txt : SylString → Str) (l : List SylString)
    (h : ∀ s ∈ l, f s = .ok (txt s)) :
    linesOf f l = .ok (l.flatMap fun s => txt s ++ b!"\n") := by
  induction l with
  | nil => rfl
  | cons s l ih => simp [linesOf, h s (by simp), ih fun x hx => h x (List.mem_cons_of_mem _ hx)]

/-! ## JSON -/

/-- `t` is read as `v`, whatever follows. -/
def Reads (t : Str) (v : J) : Prop :=
  (∃ c t', t = c :: t' ∧ (c = 34 ∨ c = 91)) ∧
  ∀ n r, 2 * t.length ≤ n → readValue n (t ++ r) = some (v, r)

theorem readString_safe (x r : Str) (h : JsonSafe x) : readString (x ++ 34 :: r) = some (x, r) := by
  induction x with
  | nil => rw [List.nil_append, readString.eq_def]; simp
  | cons c x ih =>
    obtain ⟨h1, h2, h3⟩ := h c (by simp)
    rw [List.cons_append, readString.eq_def]
    dsimp only
    rw [if_neg h2, if_neg (by omega), if_neg h3,
      ih fun y hy => h y (List.mem_cons_of_mem _ hy)]

theorem skipWs_cons {c : Nat} {r : Str} (h : 32 < c) : skipWs (c :: r) = c :: r := by
  rw [skipWs, if_neg (by omega)]

theorem reads_string (x : Str) (h : JsonSafe x) : Reads (b!"\"" ++ x ++ b!"\"") (.str x) := by
  refine ⟨⟨34, x ++ [34], by simp, .inl rfl⟩, fun n r hn => ?_⟩
  cases n with
  | zero => simp at hn
  | succ n =>
    have : b!"\"" ++ x ++ b!"\"" ++ r = 34 :: (x ++ 34 :: r) := by simp
    rw [this, readValue, skipWs_cons (by omega)]
    simp [readString_safe x r h]

theorem readElems_reads (a : Str) (v : J) (ts : List (Str × J)) (ha : Reads a v)
    (h : ∀ p ∈ ts, Reads p.1 p.2) (n : Nat) (r : Str)
    (hn : 2 * (a ++ (ts.flatMap fun (p : Str × J) => 44 :: p.1) ++ [93]).length ≤ n) :
    readElems n (a ++ (ts.flatMap fun p => 44 :: p.1) ++ 93 :: r) =
      some (v :: ts.map Prod.snd, r) := by
  induction ts generalizing a v n with
  | nil =>
    cases n with
    | zero => simp at hn
    | succ n =>
      simp at hn
      rw [readElems, List.append_assoc, ha.2 n _ (by omega)]
      simp [skipWs]
  | cons p ts ih =>
    cases n with
    | zero => simp at hn
    | succ n =>
      simp only [List.flatMap_cons, List.length_append, List.length_cons, List.length_nil] at hn
      rw [readElems, List.append_assoc, ha.2 n _ (by omega)]
      have := ih p.1 p.2 (h p (by simp)) (fun q hq => h q (List.mem_cons_of_mem _ hq)) n
        (by simp only [List.length_append, List.length_cons, List.length_nil]; omega)
      simp only [List.flatMap_cons, List.cons_append, skipWs_cons (show 32 < 44 by omega), this]
      simp

theorem reads_bracket {α} (f : α → Res Str) (v : α → J) (l : List α)
    (h : ∀ a ∈ l, (f a).Sat fun t => Reads t (v a)) :
    (bracketList f l).Sat fun t => Reads t (.arr (l.map v)) := by
  have comma : ∀ l : List α, (∀ a ∈ l, (f a).Sat fun t => Reads t (v a)) →
      ∃ ts : List (Str × J), commaLoop f l = .ok (ts.flatMap fun p => 44 :: p.1) ∧
        (∀ p ∈ ts, Reads p.1 p.2) ∧ ts.map Prod.snd = l.map v := by
    intro l
    induction l with
    | nil => exact fun _ => ⟨[], rfl, by simp, rfl⟩
    | cons a l ih =>
      intro h
      obtain ⟨ts, h1, h2, h3⟩ := ih fun x hx => h x (List.mem_cons_of_mem _ hx)
      obtain ⟨t, ht, hr⟩ := (Res.sat_iff _ _).mp (h a (by simp))
      refine ⟨(t, v a) :: ts, by simp [commaLoop, ht, h1], ?_, by simp [h3]⟩
      intro p hp
      rcases List.mem_cons.mp hp with rfl | hp
      · exact hr
      · exact h2 p hp
  cases l with
  | nil =>
    refine ⟨⟨91, [93], rfl, .inr rfl⟩, fun n r hn => ?_⟩
    cases n with
    | zero => simp at hn
    | succ n => simp [readValue, skipWs]
  | cons a l =>
    obtain ⟨ts, h1, h2, h3⟩ := comma l fun x hx => h x (List.mem_cons_of_mem _ hx)
    obtain ⟨t, ht, hr⟩ := (Res.sat_iff _ _).mp (h a (by simp))
    rw [bracketList, ht, Res.ok_bind, h1, Res.ok_bind, Res.pure_eq, Res.sat_ok]
    refine ⟨⟨91, _, by simp; rfl, .inr rfl⟩, fun n r hn => ?_⟩
    cases n with
    | zero => simp at hn
    | succ n =>
      have he : b!"[" ++ t ++ (ts.flatMap fun p => 44 :: p.1) ++ b!"]" ++ r =
          91 :: (t ++ (ts.flatMap fun p => 44 :: p.1) ++ 93 :: r) := by simp
      have hel := readElems_reads t (v a) ts hr h2 n r (by
        simp only [List.length_append, List.length_cons, List.length_nil] at hn ⊢; omega)
      obtain ⟨⟨c, t', rfl, hc⟩, _⟩ := hr
      rw [he, readValue, skipWs_cons (by omega)]
      simp only [List.cons_append] at hel ⊢
      have hw : skipWs (c :: (t' ++ (ts.flatMap fun p => 44 :: p.1) ++ 93 :: r)) =
          c :: (t' ++ (ts.flatMap fun p => 44 :: p.1) ++ 93 :: r) := skipWs_cons (by omega)
      rw [hw]
      simp only [hel, h3, List.map_cons]
      rw [if_neg (by omega), if_pos trivial, if_neg (by omega)]

theorem readJson_reads {t : Str} {v : J} (h : Reads t v) : readJson t = some v := by
  have := h.2 (2 * t.length + 1) [] (by omega)
  rw [List.append_nil] at this
  simp [readJson, this, skipWs]

theorem jsonStr_eq_bracket (out : SylOutput) (s : SylString) (h : s ≠ []) :
    jsonStr out s = bracketList (jsonSyl out) s := by
  cases s with
  | nil => exact absurd rfl h
  | cons a s => rfl

theorem jsonList_eq_bracket (out : SylOutput) (l : List SylString) (h : l ≠ []) :
    jsonList out l = bracketList (jsonStr out) l := by
  cases l with
  | nil => exact absurd rfl h
  | cons a s => rfl

theorem jsonSyl_reads (out : SylOutput) (txt : Syl → Str) (s : Syl) (h : out s = .ok (txt s))
    (hs : JsonSafe (txt s)) : (jsonSyl out s).Sat fun t => Reads t (.str (txt s)) := by
  rw [jsonSyl, h, Res.ok_bind, Res.pure_eq, Res.sat_ok]
  exact reads_string _ hs

theorem jsonStr_reads (out : SylOutput) (txt : Syl → Str) (l : SylString) (hne : l ≠ [])
    (h : ∀ s ∈ l, out s = .ok (txt s) ∧ JsonSafe (txt s)) :
    (jsonStr out l).Sat fun t => Reads t (.arr (l.map fun s => .str (txt s))) := by
  rw [jsonStr_eq_bracket _ _ hne]
  exact reads_bracket _ _ _ fun s hs => jsonSyl_reads out txt s (h s hs).1 (h s hs).2

theorem commaLoop_defd {α} {f : α → Res Str} {l : List α} (h : ∀ a ∈ l, ∃ t, f a = .ok t) : ∃ t, commaLoop f l = .ok t := by
  induction l with
  | nil => exact ⟨_, rfl⟩
  | cons a l ih =>
    obtain ⟨t, ht⟩ := h a (by simp)
    obtain ⟨r, hr⟩ := ih fun b hb => h b (by simp [hb])
    exact ⟨_, by rw [commaLoop, ht, hr]; rfl⟩

theorem bracketList_defd {α} {f : α → Res Str} {l : List α} (h : ∀ a ∈ l, ∃ t, f a = .ok t) : ∃ t, bracketList f l = .ok t := by
  cases l with
  | nil => exact ⟨_, rfl⟩
  | cons a l =>
    obtain ⟨t, ht⟩ := h a (by simp)
    obtain ⟨r, hr⟩ := commaLoop_defd fun b hb => h b (List.mem_cons_of_mem a hb)
    exact ⟨_, by rw [bracketList, ht, hr]; rfl⟩

theorem jsonStr_defd {out : SylOutput} {s : SylString} (hs : s ≠ []) (h : ∀ x ∈ s, ∃ t, out x = .ok t) :
    ∃ t, jsonStr out s = .ok t := by
  rw [jsonStr_eq_bracket _ _ hs]
  refine bracketList_defd fun x hx => ?_
  obtain ⟨t, ht⟩ := h x hx
  exact ⟨_, by rw [jsonSyl, ht]; rfl⟩

end Thpronun
