import Verif.Lemmas.Overflow
import Verif.Lemmas.AnyDict
import Verif.Props.Int
import Verif.Props.Failing

/-! # C64: exactly when an `int` overflows -/

namespace Thpronun
open Res Spec DAG

variable {ct : CType} {p : Parser} {word : Str} {w : U16Str} {look : List Nat → Option Str}

/-- C64: for texts of any length and any dictionary, if no partial reading leads too far, 32-bit arithmetic gives the same outcome
as unbounded integers, whatever it is. -/
theorem C64_same (hct : ct.Ok) (hw : fromBytes word = .ok w) (hd : Holds p.exceptDict look)
    (hn : ¬ ∃ c, TooFar ct w look (findBreaks w p.thBrk) c) : p.parseWord32 ct word = p.parseWord ct word := by
  unfold Parser.parseWord Parser.parseWord32
  rw [hw, ok_bind, ok_bind]
  exact parse32_near hct hd hn

/-- C64, exactly: a word that is parsed with unbounded integers overflows an `int` if and only if a partial reading leads too
far. -/
theorem C64_exact (hct : ct.Ok) (hw : fromBytes word = .ok w) (hd : Holds p.exceptDict look) (d : PronunDAG)
    (h : p.parseWord ct word = .ok d) :
    ((∃ c, TooFar ct w look (findBreaks w p.thBrk) c) ∧ p.parseWord32 ct word = .ub) ∨
    ((¬ ∃ c, TooFar ct w look (findBreaks w p.thBrk) c) ∧ p.parseWord32 ct word = .ok d) := by
  by_cases hn : ∃ c, TooFar ct w look (findBreaks w p.thBrk) c
  · refine .inl ⟨hn, ?_⟩
    obtain ⟨c, hc⟩ := hn
    unfold Parser.parseWord at h
    unfold Parser.parseWord32
    rw [hw, ok_bind] at h ⊢
    exact parse32_far hct hd hc h
  · exact .inr ⟨hn, (C64_same hct hw hd hn).trans h⟩

/-- So, with 32-bit integers, exactly these words are parsed: no partial reading ends at a leading vowel other than "เ" at the
end, none meets a dictionary word that cannot be read, and none leads too far. -/
theorem C64_ok (hct : ct.Ok) (hw : fromBytes word = .ok w) (hd : Holds p.exceptDict look)
    (hb : ∀ b ∈ findBreaks w p.thBrk, b ≤ w.length)
    (hr : ∀ c t q data, RuleDeriv ct w look (findBreaks w p.thBrk) c → TokenTo ct w (findBreaks w p.thBrk) c.pos t →
      WordAt ct w look c.pos t q data → ∃ strs, DataIs data strs)
    (hn : ∀ c, ¬ DeadEnd ct w look (findBreaks w p.thBrk) c) :
    (∃ d, p.parseWord32 ct word = .ok d) ↔ ¬ ∃ c, TooFar ct w look (findBreaks w p.thBrk) c := by
  obtain ⟨d, h⟩ := (C37_ok hct w p.exceptDict (findBreaks w p.thBrk) look hd hb).mpr ⟨hn, hr⟩
  rw [← C37_word p word w hw] at h
  rcases C64_exact hct hw hd d h with ⟨h1, h2⟩ | ⟨h1, h2⟩
  · exact iff_of_false (fun ⟨d, k⟩ => by rw [h2] at k; cases k) (fun k => k h1)
  · exact iff_of_true ⟨d, h2⟩ h1

private def farEntry : Dict := ⟨some [(u!"กา", 0)], some (b!"k_A_0@2147483647" ++ [0])⟩

private theorem farEntry_holds : Holds (some farEntry) (storedOf farEntry) := by
  refine holds_stored _ fun v => ?_
  simp only [farEntry, dataOf, Option.bind_some, Trie.get, List.lookup_cons, List.lookup_nil]
  cases h : v == u!"กา" with
  | true => decide
  | false => exact fun h => by cases h

/-- There is such a reading of "1กา" with the entry of `C64_false_entry`, and the word is parsed with unbounded integers. -/
example : ∃ d c, (Parser.mk (some farEntry) none).parseWord thaiCType b!"1กา" = .ok d ∧
    TooFar thaiCType u!"1กา" (storedOf farEntry) [] c := by
  have hw : fromBytes b!"1กา" = .ok u!"1กา" := rfl
  have hq : (parseU16Fuel thaiCType u!"1กา" 10 (some farEntry) []).Sat fun _ => True := by decide +kernel
  obtain ⟨d, hd, -⟩ := (sat_iff _ _).mp hq
  have h : (Parser.mk (some farEntry) none).parseWord thaiCType b!"1กา" = .ok d := by
    rw [C37_word _ _ _ hw]
    exact (parseU16_fuel (n := 10) (hd ▸ by simp : parseU16Fuel _ _ _ _ _ ≠ _)).trans hd
  rcases C64_exact (p := Parser.mk (some farEntry) none) thaiCType_ok hw farEntry_holds d h with ⟨⟨c, h1⟩, -⟩ | ⟨-, h2⟩
  · exact ⟨d, c, h, h1⟩
  · exfalso
    have hub : (Parser.mk (some farEntry) none).parseWord32 thaiCType b!"1กา" = .ub := by
      have h : (parseInit thaiCType u!"1กา" [] >>= fun pool => iterLoop (parseStep32 thaiCType u!"1กา"
          (some farEntry) []) 5 (pool, DAG.empty)) = .ub := by decide +kernel
      unfold Parser.parseWord32
      rw [hw, ok_bind]
      show parseU16w32 thaiCType u!"1กา" _ [] = .ub
      unfold parseU16w32
      cases hp : parseInit thaiCType u!"1กา" [] with
      | ok pool =>
        rw [hp, ok_bind] at h
        rw [ok_bind, whileLoop_eq (n := 5) (by rw [h]; simp), h]
      | throw e => rw [hp] at h; cases h
      | ub => rfl
      | diverge => rw [hp] at h; cases h
    rw [hub] at h2
    cases h2

end Thpronun
