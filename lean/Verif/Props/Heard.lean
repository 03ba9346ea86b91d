import Verif.Lemmas.HeardWords
import Verif.Props.Listed
import Verif.Props.Shipped
import Verif.Lemmas.ReadBack
import Verif.Lemmas.Desc

/-! # The consonants heard are written, in the same order: C86 -/

namespace Thpronun
open Res Spec DAG Heard

variable {ct : CType} {p : Parser} {word : Str} {w : U16Str} {look : List Nat → Option Str} {d : PronunDAG}
  {ss : List SylString} {X : List (Nat × InitConsSound)}

/-- Every syllable of a listed pronunciation is heard from letters of the text: its initial consonant, its second one
right after it and its final one after these (or from one of the vowels ำ เ◌า ไ ใ), and these letters are in the order of
the syllables; only a final consonant can be the first letter of the next syllable again. Other text is where it stands.
For dictionaries whose readings are written in their words in this way. -/
theorem C86_written (hct : ct.Ok) (hw : fromBytes word = .ok w) (hd : Holds p.exceptDict look) (hg : GoodLook look)
    (hX : WordsWritten X look w) (hne : w ≠ []) (h : p.parseWord ct word = .ok d) (hs : PronunDAG.sylStrings d 0 = .ok ss) :
    ∀ s ∈ ss, Written X w 0 s := by
  obtain ⟨ss', h1, h2, -⟩ := C54_exact hct hw hd hg hne h
  rw [hs] at h1
  cases h1
  exact fun s hs' => route_written hct hX s 0 0 (.inl rfl) (h2 s hs')

/-- So the consonants that syllables begin with, and the characters of other text, are a selection of the characters of
the text in the same order. -/
theorem C86_order (hct : ct.Ok) (hw : fromBytes word = .ok w) (hd : Holds p.exceptDict look) (hg : GoodLook look)
    (hX : WordsWritten X look w) (hne : w ≠ []) (h : p.parseWord ct word = .ok d) (hs : PronunDAG.sylStrings d 0 = .ok ss) :
    ∀ s ∈ ss, ∃ l, List.Forall₂ (HeardAs X) (s.flatMap onsetOf) l ∧ l.Sublist w :=
  fun s hs' => order_written s 0 (C86_written hct hw hd hg hX hne h hs s hs')

/-- A pronunciation has at most as many syllables as the text has consonants (ฤ and ฦ among them). -/
theorem C86_count (hct : ct.Ok) (hw : fromBytes word = .ok w) (hd : Holds p.exceptDict look) (hg : GoodLook look)
    (hX : WordsWritten X look w) (hX' : ∀ e ∈ X, CanSound e.1) (hne : w ≠ []) (h : p.parseWord ct word = .ok d)
    (hs : PronunDAG.sylStrings d 0 = .ok ss) :
    ∀ s ∈ ss, (s.filter fun x => x.literal = []).length ≤ (w.filter fun c => CanSound c).length := by
  intro s hs'
  obtain ⟨l, h1, h2⟩ := C86_order hct hw hd hg hX hne h hs s hs'
  exact (count_heard hX' h1).trans (h2.filter _).length_le

/-- Without dictionary there are no irregular sounds. -/
theorem C86_plain (hct : ct.Ok) (hw : fromBytes word = .ok w) (hd : p.exceptDict = none) (hne : w ≠ [])
    (h : p.parseWord ct word = .ok d) (hs : PronunDAG.sylStrings d 0 = .ok ss) :
    ∀ s ∈ ss, Written [] w 0 s ∧ (∃ l, List.Forall₂ (HeardAs []) (s.flatMap onsetOf) l ∧ l.Sublist w) ∧
      (s.filter fun x => x.literal = []).length ≤ (w.filter fun c => CanSound c).length := by
  have hd' : Holds p.exceptDict fun _ => none := by rw [hd]; exact holds_none
  have hg : GoodLook fun _ => none := fun v data h => by cases h
  have hX : WordsWritten [] (fun _ => none) w := fun _ _ _ _ _ h => by cases h
  exact fun s hs' => ⟨C86_written hct hw hd' hg hX hne h hs s hs', C86_order hct hw hd' hg hX hne h hs s hs',
    C86_count hct hw hd' hg hX (fun e he => by cases he) hne h hs s hs'⟩

/-- The dictionary that is shipped: its readings are written in their words, with ทร as ซ and ฑ as ด. -/
theorem C86_data (w : U16Str) : WordsWritten shippedSounds (lastData exceptEntries) w := by
  intro p q data strs str hl hdata hstr
  unfold lastData at hl
  obtain ⟨e, he, rfl⟩ := Option.map_eq_some_iff.mp hl
  have key : ∀ e ∈ exceptEntries, (match SylString.makeSylStrings e.data with
      | .ok strs => strs.all fun str => entryB shippedSounds e.word str
      | _ => true) = true := by decide +kernel
  have hk := key e (List.mem_reverse.mp (List.mem_of_find?_eq_some he))
  rw [(makeSylStrings_iff _ _).mpr hdata] at hk
  have hw : e.word = piece w p q := by simpa using List.find?_some he
  rw [← hw]
  exact entryB_sound (List.all_eq_true.mp hk str hstr)

/-- With the shipped dictionary. -/
theorem C86_shipped (hct : ct.Ok) (hw : fromBytes word = .ok w) (hd : Holds p.exceptDict (lastData exceptEntries))
    (hne : w ≠ []) (h : p.parseWord ct word = .ok d) (hs : PronunDAG.sylStrings d 0 = .ok ss) :
    ∀ s ∈ ss, Written shippedSounds w 0 s ∧
      (∃ l, List.Forall₂ (HeardAs shippedSounds) (s.flatMap onsetOf) l ∧ l.Sublist w) ∧
      (s.filter fun x => x.literal = []).length ≤ (w.filter fun c => CanSound c).length := by
  have hg : GoodLook (lastData exceptEntries) := C48_good _ fun _ h => h
  exact fun s hs' => ⟨C86_written hct hw hd hg (C86_data w) hne h hs s hs', C86_order hct hw hd hg (C86_data w) hne h hs s hs',
    C86_count hct hw hd hg (C86_data w) (by decide) hne h hs s hs'⟩

/-- Both irregular sounds occur: ทราบ is read with ซ, มณฑป with ด. -/
theorem C86_irregular :
    (∃ e ∈ exceptEntries, e.word = u!"ทราบ" ∧ ∃ strs, DataIs e.data strs ∧
      ∃ str ∈ strs, ∃ x ∈ str, x.iCons1 = .SA ∧ ∀ c ∈ e.word, ¬ Heard [(ch!"ฑ", .DA)] c .SA) ∧
    (∃ e ∈ exceptEntries, e.word = u!"มณฑป" ∧ ∃ strs, DataIs e.data strs ∧
      ∃ str ∈ strs, ∃ x ∈ str, x.iCons1 = .DA ∧ ∀ c ∈ e.word, ¬ Heard [(ch!"ท", .SA)] c .DA) := by
  have dec : ∀ X c snd, Decidable (Heard X c snd) := fun X c snd => by unfold Heard; infer_instance
  refine ⟨⟨⟨u!"ทราบ", b!"s_Ap2@4"⟩, by decide +kernel, rfl, [[⟨.SA, SC.NONE, VW.AA, .KOP, .THO, [], 4⟩]],
    (makeSylStrings_iff _ _).mp (by decide +kernel), _, List.mem_singleton.mpr rfl, _, List.mem_singleton.mpr rfl, rfl, ?_⟩,
    ⟨u!"มณฑป", b!"m_on0@2,d_op1@4"⟩, by decide +kernel, rfl,
    [[⟨.MA, SC.NONE, VW.O, .KON, .SAMAN, [], 2⟩, ⟨.DA, SC.NONE, VW.O, .KOP, .EK, [], 4⟩]],
    (makeSylStrings_iff _ _).mp (by decide +kernel), _, List.mem_singleton.mpr rfl, _,
    List.mem_cons_of_mem _ (List.mem_singleton.mpr rfl), rfl, ?_⟩ <;> unfold Heard <;> decide

/-- Such texts: ตลาด is read with the consonants of ต and ล, รัฐบาล with those of ร, ฐ (the final consonant of รัฐ again)
and บ, ไกล with ก and ล in one syllable. -/
example : ∀ x ∈ [(u!"ตลาด", [InitConsSound.TA, .LA]), (u!"รัฐบาล", [.RA, .THA, .BA]), (u!"ไกล", [.KA, .LA])],
    parsesTo 60 x.1 none [] (fun d => match PronunDAG.sylStrings d 0 with
      | .ok ss => ss.any fun s => decide (s.flatMap onsetOf = x.2.map .inl)
      | _ => false) = true := by decide +kernel

end Thpronun
