import Verif.Lemmas.Ordinary
import Verif.Props.Again
import Verif.Props.Spelling
import Verif.Props.Shipped

/-! # Property C68: the Thai lines of ordinary words can be read again -/

namespace Thpronun
open Res Spec DAG Shipped

variable {ct : CType} {w : U16Str} {brk : List Int} {look : List Nat → Option Str} {p0 : Parser} {word : Str}
  {d0 : PronunDAG} {l0 : List (List Syl)}

/-- Which written syllables can be respelled: all but the irregular ones. -/
theorem C68_exact {t i : Nat} {l : Bool} {o : Onset} {r : Rime} (ht : t ≤ w.length) (h : Spelled ct w t i l o r) :
    Respellable (spoken o r) ↔ ¬ Irregular o r :=
  respellable_iff ht h

/-- An ordinary text has no irregular syllables. -/
theorem C68_regular {t i : Nat} {l : Bool} {o : Onset} {r : Rime} (hw : Ordinary ct w) (ht : t ≤ w.length)
    (h : Spelled ct w t i l o r) : ¬ Irregular o r :=
  ordinary_regular ht hw h

/-- Every syllable listed for an ordinary word that is no other text can be respelled. -/
theorem C68_respellable (hct : ct.Ok) (hw : fromBytes word = .ok w) (hd0 : Holds p0.exceptDict look) (hg : GoodLook look)
    (h0 : p0.parseWord ct word = .ok d0) (hl0 : PronunDAG.sylStrings d0 0 = .ok l0) (hord : Ordinary ct w)
    (hlook : ∀ q m data strs, look (piece w q m) = some data → DataIs data strs → ∀ str ∈ strs, ∀ s ∈ str, Respellable s)
    (ss : List Syl) (hs : ss ∈ l0) (s : Syl) (hsm : s ∈ ss) (hlit : s.literal = []) : Respellable s := by
  obtain ⟨hbu, hac⟩ := C38_acyclic hct hw hd0 hg h0
  obtain ⟨ps, e1, -, e3⟩ := C15_listing d0 hbu hac
  rw [hl0] at e1
  cases e1
  obtain ⟨r, hr, rfl⟩ := List.mem_map.mp hs
  obtain ⟨e, he, rfl⟩ := List.mem_map.mp hsm
  have hm := (e3 r).mp hr
  obtain ⟨es, ⟨c, hc, -, rfl⟩, e', he', -, -, hval⟩ :=
    (C43_edges hct hw hd0 h0 e.key e.target e.val).mp ⟨e, List.mem_filter.mpr ⟨hm.mem he, by simp⟩, rfl, Syl.eq_refl _⟩
  have hl : e'.val.literal = [] := by
    rw [((Syl.eq_iff _ _).mp hval).1]
    exact hlit
  exact (respellable_congr hl hval).mp ((deriv_respellable hord hlook hc e' he').resolve_left fun h => h hl)

/-- Every pronunciation listed for an ordinary word (without other text, and with readings of dictionary words that can
be respelled) is read again from its line in Thai without the dots, by a parser without dictionary and word breaking. -/
theorem C68_word (hct : ct.Ok) (hw : fromBytes word = .ok w) (hd0 : Holds p0.exceptDict look) (hg : GoodLook look)
    (h0 : p0.parseWord ct word = .ok d0) (hl0 : PronunDAG.sylStrings d0 0 = .ok l0) (hord : Ordinary ct w)
    (hlook : ∀ q m data strs, look (piece w q m) = some data → DataIs data strs → ∀ str ∈ strs, ∀ s ∈ str, Respellable s)
    (ss : List Syl) (hs : ss ∈ l0) (hlit : ∀ s ∈ ss, s.literal = [])
    (p : Parser) (hd : p.exceptDict = none) (hb : p.thBrk = none) :
    ∃ cs, delimStr thaiSyl ch!"-" ss = .ok (enc8 cs) ∧ ∃ d l, p.parseWord thaiCType (enc8 (plain cs)) = .ok d ∧
      PronunDAG.sylStrings d 0 = .ok l ∧ ∃ z ∈ l, SameSounds z (withHyphens ss) := by
  obtain ⟨cs, h1, d, l, h2, h3, h4⟩ := C67_word hct hw hd0 hg h0 hl0 ss hs hlit p hd hb
  exact ⟨cs, h1, d, l, h2, h3,
    h4.mpr fun s hsm => C68_respellable hct hw hd0 hg h0 hl0 hord hlook ss hs s hsm (hlit s hsm)⟩

/-- The readings of the shipped dictionary can be respelled, all but one. -/
theorem C68_data (e : DEntry) (he : e ∈ exceptEntries) (hne : e.word ≠ u!"สรเพชญ") (strs : List SylString)
    (hd : DataIs e.data strs) : ∀ str ∈ strs, ∀ s ∈ str, Respellable s := by
  have key : ∀ e ∈ exceptEntries, e.word ≠ u!"สรเพชญ" → (match SylString.makeSylStrings e.data with
      | .ok strs => decide (∀ str ∈ strs, ∀ s ∈ str, Respellable s)
      | _ => true) = true := by decide +kernel
  have := key e he hne
  rw [(makeSylStrings_iff _ _).mpr hd] at this
  exact of_decide_eq_true this

/-- The exception: the first syllable of "สรเพชญ" is given with a cluster sr, which no Thai spelling has. -/
theorem C68_data_false : ∃ e ∈ exceptEntries, e.word = u!"สรเพชญ" ∧ ∃ strs, DataIs e.data strs ∧
    ∃ str ∈ strs, ∃ s ∈ str, ¬ Respellable s ∧ s.iCons1 = .SA ∧ s.iCons2 = SC.RA := by
  refine ⟨⟨u!"สรเพชญ", b!"sra_1@2,P_et3@6"⟩, by decide +kernel, rfl, ?_⟩
  refine ⟨[[⟨.SA, SC.RA, VW.A, .NONE, .EK, [], 2⟩, ⟨.PHA, SC.NONE, VW.E, .KOT, .TRI, [], 6⟩]],
    (makeSylStrings_iff _ _).mp (by decide +kernel), _, List.mem_singleton_self _, _, List.mem_cons_self, ?_⟩
  decide +kernel

/-- The same with the shipped dictionary, for texts without "สรเพชญ". -/
theorem C68_shipped (hw : fromBytes word = .ok w) (hd0 : Holds p0.exceptDict (lastData exceptEntries))
    (h0 : p0.parseWord thaiCType word = .ok d0) (hl0 : PronunDAG.sylStrings d0 0 = .ok l0) (hord : Ordinary thaiCType w)
    (hno : ∀ q m, piece w q m ≠ u!"สรเพชญ") (ss : List Syl) (hs : ss ∈ l0) (hlit : ∀ s ∈ ss, s.literal = [])
    (p : Parser) (hd : p.exceptDict = none) (hb : p.thBrk = none) :
    ∃ cs, delimStr thaiSyl ch!"-" ss = .ok (enc8 cs) ∧ ∃ d l, p.parseWord thaiCType (enc8 (plain cs)) = .ok d ∧
      PronunDAG.sylStrings d 0 = .ok l ∧ ∃ z ∈ l, SameSounds z (withHyphens ss) := by
  refine C68_word thaiCType_ok hw hd0 (C48_good _ fun _ h => h) h0 hl0 hord ?_ ss hs hlit p hd hb
  intro q m data strs hlook hdata
  unfold lastData at hlook
  obtain ⟨e, he, rfl⟩ := Option.map_eq_some_iff.mp hlook
  have h1 := List.mem_reverse.mp (List.mem_of_find?_eq_some he)
  have h2 : e.word = piece w q m := by simpa using List.find?_some he
  exact C68_data e h1 (by rw [h2]; exact hno q m) strs hdata

/-- The hypothesis is met by ordinary words: "โรงเรียนอนุบาล", "ก๋วยเตี๋ยว", "พฤกษา", "เลย". -/
example : ∀ w ∈ [u!"โรงเรียนอนุบาล", u!"ก๋วยเตี๋ยว", u!"พฤกษา", u!"เลย", u!"อังกฤษ", u!"เพชรบูรณ์", u!"แพทย์"], Ordinary thaiCType w := by
  intro w hw
  exact ordinary_of ((by decide +kernel : ∀ w ∈ [u!"โรงเรียนอนุบาล", u!"ก๋วยเตี๋ยว", u!"พฤกษา", u!"เลย", u!"อังกฤษ", u!"เพชรบูรณ์", u!"แพทย์"],
    ordinaryB thaiCType w = true) w hw)

/-- Words that are not ordinary, one or two for each condition of `Ordinary` in its order, each with a pronunciation
that has a syllable (no other text) which cannot be respelled. -/
theorem C68_needed (w : U16Str)
    (hw : w ∈ [u!"มฤก", u!"กฤย", u!"กฤ่ย", u!"ทร๋า", u!"แก่็ง", u!"เกก์ย", u!"เกยา"]) :
    ∃ d l, (Parser.new (fun _ => []) false).parseWord thaiCType (enc8 w) = .ok d ∧
      PronunDAG.sylStrings d 0 = .ok l ∧ ∃ ss ∈ l, ∃ s ∈ ss, s.literal = [] ∧ ¬ Respellable s := by
  have key : ∀ w ∈ [u!"มฤก", u!"กฤย", u!"กฤ่ย", u!"ทร๋า", u!"แก่็ง", u!"เกก์ย", u!"เกยา"],
      fromBytes (enc8 w) = .ok w ∧ parsesTo 60 w none [] (fun d => match PronunDAG.sylStrings d 0 with
        | .ok l => l.any fun ss => ss.any fun s => decide (s.literal = [] ∧ ¬ Respellable s)
        | _ => false) = true := by
    decide +kernel
  obtain ⟨h1, h2⟩ := key w hw
  obtain ⟨d, l, hd, hl, h⟩ := lists_spec (Q := fun l => l.any fun ss => ss.any fun s =>
    decide (s.literal = [] ∧ ¬ Respellable s)) h2
  obtain ⟨ss, hss, h⟩ := List.any_eq_true.mp h
  obtain ⟨s, hs, h⟩ := List.any_eq_true.mp h
  refine ⟨d, l, ?_, hl, ss, hss, s, hs, of_decide_eq_true h⟩
  simp only [Parser.parseWord, h1, ok_bind]
  exact hd

end Thpronun
