import Verif.Lemmas.ParserInt
import Verif.Lemmas.Spelled
import Verif.Lemmas.Work
import Verif.Props.Parser

/-! # 32-bit integers: C64 -/

namespace Thpronun
open Res Spec DAG

variable {ct : CType} {p : Parser} {word : Str} {w : U16Str} {look : List Nat → Option Str}

/-- For words of up to 2^31/101 (about 21 million) units and dictionaries whose readings lead forward to the end of the
word, no `int` overflows: 32-bit arithmetic gives the same outcome as unbounded integers, whatever it is. -/
theorem C64_partial (hct : ct.Ok) (hw : fromBytes word = .ok w) (hd : Holds p.exceptDict look) (hg : GoodLook look)
    (hb : 101 * w.length ≤ 2147483647) : p.parseWord32 ct word = p.parseWord ct word := by
  unfold Parser.parseWord Parser.parseWord32
  rw [hw, ok_bind, ok_bind]
  exact parse32_eq hct hg hd hb

example : (∃ w, fromBytes b!"ตลาด" = .ok w ∧ 101 * w.length ≤ 2147483647) ∧
    Holds (Parser.new (fun _ => []) false).exceptDict (fun _ => none) ∧ GoodLook fun _ => none :=
  ⟨⟨u!"ตลาด", rfl, by decide⟩, holds_none, goodLook_none⟩

/-- A dictionary entry with a huge end position: the `int` overflows when the word does not stand at the beginning. -/
theorem C64_false_entry : ∃ d : Dict, Parser.parseWord32 thaiCType ⟨some d, none⟩ b!"1กา" = .ub := by
  refine ⟨⟨some [(u!"กา", 0)], some (b!"k_A_0@2147483647" ++ [0])⟩, ?_⟩
  have h : (parseInit thaiCType u!"1กา" [] >>= fun pool => iterLoop (parseStep32 thaiCType u!"1กา"
      (some ⟨some [(u!"กา", 0)], some (b!"k_A_0@2147483647" ++ [0])⟩) []) 5 (pool, DAG.empty)) = .ub := by decide +kernel
  unfold Parser.parseWord32
  rw [show fromBytes b!"1กา" = .ok u!"1กา" from rfl, ok_bind]
  show parseU16w32 thaiCType u!"1กา" _ [] = .ub
  unfold parseU16w32
  cases hp : parseInit thaiCType u!"1กา" [] with
  | ok pool =>
    rw [hp, ok_bind] at h
    rw [ok_bind, whileLoop_eq (n := 5) (by rw [h]; simp), h]
  | throw e => rw [hp] at h; cases h
  | diverge => rw [hp] at h; cases h
  | ub => rfl

/-- ตลาด, far from the beginning. -/
private def far (n : Nat) : U16Str := List.replicate n ch!" " ++ u!"ตลาด"

private theorem far_at (n i : Nat) : (far n)[n + i]? = (u!"ตลาด" : U16Str)[i]? := by
  unfold far
  rw [List.getElem?_append_right (by simp)]
  simp

/-- On long texts the `int` of a pre-syllable's position overflows: ตลาด after 21474837 or more spaces. -/
theorem C64_false_long (n : Nat) (hn : 21474837 ≤ n) :
    parseU16w32 thaiCType (List.replicate n ch!" " ++ u!"ตลาด") none [] = .ub := by
  show parseU16w32 thaiCType (far n) none [] = .ub
  have hlen : (far n).length = n + 4 := by simp [far]
  have hdrop : (far n).drop n = u!"ตลาด" := by simp [far]
  have hsk : skipNonThai thaiCType (far n) 0 = n := by
    have : (fun c => !isThaiTokenChar thaiCType c) ch!" " = true := by decide
    simp [skipNonThai, far, List.takeWhile_append, this]
    decide
  have hstop : nextWordStop thaiCType (far n) n [] = .ok (n + 4) := by
    unfold nextWordStop
    rw [hdrop]
    simp only [List.find?_nil, Option.getD_none, hlen]
    exact Work.stopLoop_all u!"ตลาด" n (by decide)
  obtain ⟨d, hi⟩ : ∃ d, parseInit thaiCType (far n) [] = .ok [⟨n, n + 4, d, false⟩] := by
    unfold parseInit refresh
    simp only [hsk, if_pos (show n > 0 by omega), hlen, if_pos (show n < n + 4 by omega), hstop, ok_bind, pure_eq]
    exact ⟨_, rfl⟩
  unfold parseU16w32
  rw [hi, ok_bind]
  suffices h : parseStep32 thaiCType (far n) none [] ([⟨n, n + 4, d, false⟩], DAG.empty) = .ub by
    have : iterLoop (parseStep32 thaiCType (far n) none []) 1 ([⟨n, n + 4, d, false⟩], DAG.empty) = .ub := by
      rw [iterLoop, h]
    rw [whileLoop_eq (n := 1) (by rw [this]; simp), this]
  have habbr : findAbbr thaiCType (far n) ⟨n, n + 4, d, false⟩ = .ok none := by
    unfold findAbbr
    have ha : ∃ b, abbrAllowed (far n) n = .ok b := by
      unfold abbrAllowed
      rw [if_pos (by omega), strAt_eq (List.getElem?_eq_getElem (by omega : n - 1 < (far n).length))]
      exact ⟨_, rfl⟩
    obtain ⟨b, hb⟩ := ha
    simp only [hb, ok_bind]
    cases b with
    | false => rfl
    | true =>
      rw [if_pos rfl]
      simp only [hdrop]
      have : abbrScan thaiCType u!"ตลาด" n (n + 4) 0 = .ok none := by
        rw [abbrScan, if_pos (by omega), if_pos (by decide), if_neg (by omega), abbrScan, if_pos (by omega),
          if_pos (by decide), if_neg (by omega), abbrScan, if_pos (by omega), if_neg (by decide), if_neg (by decide)]
      rw [this]
      rfl
  have hto : strAt (far n) n = .ok ch!"ต" := strAt_eq (far_at n 0)
  -- the grammar has a reading with a pre-syllable
  have hsp : ∃ o r, Spelled thaiCType (far n) (n + 4) n false o r ∧ o.pre ≠ none := by
    refine ⟨⟨n + 2, some (openSyl .TA .MID VW.A), .LA, .MID, SC.NONE, none⟩, ⟨n + 3, false, VW.AA, .NONE, .SAMAN⟩,
      ⟨ch!"ต", far_at n 0, .inl ⟨by decide, .inl ⟨⟨ch!"ต", .TA, .MID, far_at n 0, ⟨by decide, by decide, by decide⟩,
        .inr (.inl ⟨ch!"ล", .LA, .LOWS, ⟨by omega, far_at n 1⟩, ⟨by decide, by decide, by decide⟩,
          fun h => absurd h.1 (by decide), .inr (.inr (.inr rfl))⟩)⟩, by simp only; omega,
        .inr (.inr (.inr ⟨.SAMAN, n + 2, .inr ⟨?_, rfl, rfl⟩, .inr (.inl ⟨⟨by omega, far_at n 2⟩, .inl ⟨n + 3, .inr ⟨?_, rfl⟩, rfl⟩⟩)⟩))⟩⟩⟩, by simp⟩
    · rintro c ⟨-, h⟩
      simp only at h
      rw [far_at n 2] at h
      cases h
      decide
    · rintro ⟨c, -, -, h, -⟩
      omega
  obtain ⟨o, r, hsp, hpre⟩ := hsp
  have hchar : parseChar32 thaiCType (far n) ⟨n, n + 4, d, false⟩ [] = .ub := by
    unfold parseChar32
    simp only [hto, ok_bind]
    rw [if_pos (by decide)]
    have hg : grammar thaiCType (far n) n (n + 4) false ch!"ต" = parseThCons thaiCType (far n) n (n + 4) false := by
      rw [grammar, if_pos (by decide)]
    rcases grammar_total thaiCType_ok (w := far n) (p := n) (t := n + 4) (c := ch!"ต") false (by omega) (by omega) with
      ⟨ems, hems⟩ | ⟨-, h, -⟩
    · rw [← hg, hems, ok_bind]
      have hsat := (satP_iff _ _).mp (grammar_spelled (t := n + 4) (l := false) thaiCType_ok (far_at n 0)) ems hems
      obtain ⟨e, he, hr⟩ := hsat.2 o r hsp
      have hep : e.p.pre ≠ none := by
        rw [hr.1.1]
        exact hpre
      have key : ∀ (es : List Emit) (pool : StatePool), e ∈ es → addEmits32 pool ⟨n, n + 4, d, false⟩ es = .ub := by
        intro es
        induction es with
        | nil => intro _ h; cases h
        | cons x xs ih =>
          intro pool hx
          rw [addEmits32]
          cases hxp : x.p.pre with
          | none =>
            simp only [addSyl32, hxp, pure_eq, ok_bind]
            rcases List.mem_cons.mp hx with rfl | hx
            · exact absurd hxp hep
            · exact ih _ hx
          | some pre =>
            have : preNode32 n x.pos = .ub := by
              unfold preNode32
              rw [int32, if_neg (by omega)]
              rfl
            simp only [addSyl32, hxp, this]
            rfl
      exact key ems [] he
    · exact absurd h (by decide)
  rw [parseStep32, if_neg (by simp only; omega), if_neg (by simp only; omega)]
  simp only [pure_eq, ok_bind, habbr, hchar]
  rfl

end Thpronun
