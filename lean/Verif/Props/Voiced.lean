import Verif.Lemmas.Voiced
import Verif.Lemmas.HeardWords
import Verif.Props.Listed
import Verif.Props.Shipped
import Verif.Lemmas.ReadBack
import Verif.Lemmas.Desc

/-! # The vowel and the tone are those that are written: C88 -/

namespace Thpronun
open Res Spec DAG Heard Voiced

variable {ct : CType} {p : Parser} {word : Str} {w : U16Str} {look : List Nat → Option Str} {d : PronunDAG}
  {ss : List SylString}

/-- The syllables of a listed pronunciation share out the text from its beginning to its end. Each has a vowel that is
written with the vowel signs of its part, and the tone that its tone mark, its consonants and its vowel give; the only
signs without effect are silenced ◌ิ ◌ุ and those on a final ฒ ต ธ ร. -/
theorem C88_voiced (hct : ct.Ok) (hk : SignsKnown ct) (hw : fromBytes word = .ok w) (hd : Holds p.exceptDict look)
    (hg : GoodLook look) (hp : WordsHeld look w) (hne : w ≠ []) (h : p.parseWord ct word = .ok d)
    (hs : PronunDAG.sylStrings d 0 = .ok ss) : ∀ s ∈ ss, AllVoiced ct look (findBreaks w p.thBrk) w 0 [] s := by
  obtain ⟨ss', h1, h2, -⟩ := C54_exact hct hw hd hg hne h
  rw [hs] at h1
  cases h1
  exact fun s hs' => route_voiced hct hk hp s 0 0 [] (.inl ⟨rfl, rfl⟩) (h2 s hs')

/-- Without dictionary every vowel sign other than ◌ิ ◌ุ is heard: some syllable has a vowel that is written with it. Every
tone mark is heard: some syllable has a tone that comes from it. -/
theorem C88_heard (hct : ct.Ok) (hk : SignsKnown ct) (hw : fromBytes word = .ok w) (hd : p.exceptDict = none)
    (hne : w ≠ []) (h : p.parseWord ct word = .ok d) (hs : PronunDAG.sylStrings d 0 = .ok ss) :
    ∀ s ∈ ss, AllVoiced ct (fun _ => none) (findBreaks w p.thBrk) w 0 [] s ∧
      (∀ c ∈ w, c ∈ vowelSigns → c ∉ u!"ิุ" → ∃ x ∈ s, x.literal = [] ∧ ∃ y ∈ spellings, c ∈ y.1 ∧ x.vowel = y.2.1) ∧
      (∀ c ∈ w, ∀ m, (c, m) ∈ marks → ∃ x ∈ s, x.literal = [] ∧ ∃ cls, x.tone = spokenTone cls x.vowel x.eCons m) := by
  have hd' : Holds p.exceptDict fun _ => none := by rw [hd]; exact holds_none
  have hg : GoodLook fun _ => none := fun v data h => by cases h
  have hp : WordsHeld (fun _ => none) w := fun _ _ _ _ _ h => by cases h
  intro s hs'
  have hv := C88_voiced hct hk hw hd' hg hp hne h hs s hs'
  refine ⟨hv, fun c hc h1 h2 => ?_, fun c hc m h1 => ?_⟩
  · obtain ⟨n, hn⟩ := List.mem_iff_getElem?.mp hc
    exact voiced_sign hn h1 h2 s 0 [] (.inl (Nat.zero_le _)) hv
  · obtain ⟨n, hn⟩ := List.mem_iff_getElem?.mp hc
    exact voiced_mark hn h1 s 0 [] (Nat.zero_le _) hv

/-- So ◌๊ and ◌๋ are always heard at their face value, ◌่ as low or falling tone, ◌้ as falling or high tone. -/
theorem C88_marks (hct : ct.Ok) (hk : SignsKnown ct) (hw : fromBytes word = .ok w) (hd : p.exceptDict = none)
    (hne : w ≠ []) (h : p.parseWord ct word = .ok d) (hs : PronunDAG.sylStrings d 0 = .ok ss) : ∀ s ∈ ss,
    (ch!"๋" ∈ w → ∃ x ∈ s, x.literal = [] ∧ x.tone = .CHATTAWA) ∧ (ch!"๊" ∈ w → ∃ x ∈ s, x.literal = [] ∧ x.tone = .TRI) ∧
    (ch!"่" ∈ w → ∃ x ∈ s, x.literal = [] ∧ (x.tone = .EK ∨ x.tone = .THO)) ∧
    (ch!"้" ∈ w → ∃ x ∈ s, x.literal = [] ∧ (x.tone = .THO ∨ x.tone = .TRI)) := by
  intro s hs'
  have hm := (C88_heard hct hk hw hd hne h hs s hs').2.2
  have key : ∀ cls b b', (prescribed cls .CHATTAWA b b').getD .CHATTAWA = .CHATTAWA ∧ (prescribed cls .TRI b b').getD .TRI = .TRI ∧
      ((prescribed cls .EK b b').getD .EK = .EK ∨ (prescribed cls .EK b b').getD .EK = .THO) ∧
      ((prescribed cls .THO b b').getD .THO = .THO ∨ (prescribed cls .THO b b').getD .THO = .TRI) := by
    intro cls b b'
    cases cls <;> cases b <;> cases b' <;> decide
  refine ⟨fun hc => ?_, fun hc => ?_, fun hc => ?_, fun hc => ?_⟩
  · obtain ⟨x, h1, h2, cls, h3⟩ := hm _ hc .CHATTAWA (by decide)
    exact ⟨x, h1, h2, h3.trans (key _ _ _).1⟩
  · obtain ⟨x, h1, h2, cls, h3⟩ := hm _ hc .TRI (by decide)
    exact ⟨x, h1, h2, h3.trans (key _ _ _).2.1⟩
  · obtain ⟨x, h1, h2, cls, h3⟩ := hm _ hc .EK (by decide)
    exact ⟨x, h1, h2, by rw [h3]; exact (key _ _ _).2.2.1⟩
  · obtain ⟨x, h1, h2, cls, h3⟩ := hm _ hc .THO (by decide)
    exact ⟨x, h1, h2, by rw [h3]; exact (key _ _ _).2.2.2⟩

/-- The syllables of the dictionary that is shipped begin and end in their words. -/
theorem C88_data (w : U16Str) : WordsHeld (lastData exceptEntries) w := by
  intro p q data strs str hl hdata hstr
  unfold lastData at hl
  obtain ⟨e, he, rfl⟩ := Option.map_eq_some_iff.mp hl
  have key : ∀ e ∈ exceptEntries, (match SylString.makeSylStrings e.data with
      | .ok strs => strs.all fun str => (wordEdges 0 0 str).all fun x =>
          (placeB e.word x.key).any fun a => (placeB e.word x.target).any fun b => decide (a < b ∧ b ≤ e.word.length)
      | _ => true) = true := by decide +kernel
  have hk := key e (List.mem_reverse.mp (List.mem_of_find?_eq_some he))
  rw [(makeSylStrings_iff _ _).mpr hdata] at hk
  have hw : e.word = piece w p q := by simpa using List.find?_some he
  rw [← hw]
  intro x hx
  have := List.all_eq_true.mp (List.all_eq_true.mp hk str hstr) x hx
  simp only [Option.any_eq_true, decide_eq_true_eq] at this
  obtain ⟨a, h1, b, h2, h3⟩ := this
  exact ⟨a, b, placeB_sound h1, placeB_sound h2, h3⟩

/-- With the shipped dictionary. -/
theorem C88_shipped (hct : ct.Ok) (hk : SignsKnown ct) (hw : fromBytes word = .ok w)
    (hd : Holds p.exceptDict (lastData exceptEntries)) (hne : w ≠ []) (h : p.parseWord ct word = .ok d)
    (hs : PronunDAG.sylStrings d 0 = .ok ss) :
    ∀ s ∈ ss, AllVoiced ct (lastData exceptEntries) (findBreaks w p.thBrk) w 0 [] s :=
  C88_voiced hct hk hw hd (C48_good _ fun _ h => h) (C88_data w) hne h hs

/-- The classification of Thai characters knows the signs and marks. -/
example : SignsKnown thaiCType := by unfold SignsKnown; decide +kernel

/-- Every row of the table is used: these syllables have a pronunciation of one syllable with this vowel. -/
example : ∀ x ∈ [(u!"กรรม", VW.A), (u!"คน", VW.O), (u!"ก้อน", VW.AUU), (u!"พร", VW.AUU), (u!"ควร", VW.UAA), (u!"กฤษ", VW.I), (u!"ฤ", VW.UE),
      (u!"กะ", VW.A), (u!"กัน", VW.A), (u!"ตัว", VW.UAA), (u!"ผัวะ", VW.UA), (u!"กา", VW.AA), (u!"ฤา", VW.UEE), (u!"ฤๅ", VW.UEE),
      (u!"น้ำ", VW.A), (u!"กิน", VW.I), (u!"ปี", VW.II), (u!"ลึก", VW.UE), (u!"มือ", VW.UEE), (u!"คุณ", VW.U), (u!"ปู", VW.UU),
      (u!"ก็อก", VW.AU), (u!"เก", VW.EE), (u!"เธอ", VW.OEE), (u!"เคย", VW.OEE), (u!"เตะ", VW.E), (u!"เลอะ", VW.OE), (u!"เป็น", VW.E),
      (u!"เกิด", VW.OEE), (u!"เสีย", VW.IAA), (u!"เกียะ", VW.IA), (u!"เสือ", VW.UEAA), (u!"เสือะ", VW.UEA), (u!"เขา", VW.A),
      (u!"เกาะ", VW.AU), (u!"แก", VW.AEE), (u!"แกะ", VW.AE), (u!"แข็ง", VW.AE), (u!"โต", VW.OO), (u!"โต๊ะ", VW.O), (u!"ไป", VW.A),
      (u!"ใจ", VW.A)],
    parsesTo 60 x.1 none [] (fun d => match PronunDAG.sylStrings d 0 with
      | .ok ss => ss.any fun s => decide (s.length = 1) && s.all fun y => decide (y.vowel = x.2)
      | _ => false) = true := by decide +kernel

/-- A leading vowel can be heard after the next consonant, in the second of two syllables; and ◌ิ ◌ุ can be without effect:
เสมอ is sa-məə, ชาติ is chaat, ธาตุ is thaat, พันธุ์ is phan. -/
example : ∀ x ∈ [(u!"เสมอ", [VW.A, VW.OEE]), (u!"ชาติ", [VW.AA]), (u!"ธาตุ", [VW.AA]), (u!"พันธุ์", [VW.A])],
    parsesTo 60 x.1 none [] (fun d => match PronunDAG.sylStrings d 0 with
      | .ok ss => ss.any fun s => decide (s.map (·.vowel) = x.2)
      | _ => false) = true := by decide +kernel

end Thpronun
