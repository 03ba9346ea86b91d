import Verif.Lemmas.Unheard
import Verif.Lemmas.HeardWords
import Verif.Props.Listed
import Verif.Props.Shipped
import Verif.Lemmas.ReadBack
import Verif.Lemmas.Desc

/-! # Which consonants are not heard: C87 -/

namespace Thpronun
open Res Spec DAG Heard

variable {ct : CType} {p : Parser} {word : Str} {w : U16Str} {look : List Nat → Option Str} {d : PronunDAG}
  {ss : List SylString}

/-- The syllables of a listed pronunciation share out the text from its beginning to its end, and every consonant is heard
in the syllable it belongs to, or is silent for one of the reasons of `Unheard`, or stands in a dictionary word. -/
theorem C87_accounted (hct : ct.Ok) (hw : fromBytes word = .ok w) (hd : Holds p.exceptDict look) (hg : GoodLook look)
    (hp : WordsPlaced look w) (hne : w ≠ []) (h : p.parseWord ct word = .ok d) (hs : PronunDAG.sylStrings d 0 = .ok ss) :
    ∀ s ∈ ss, AllAccounted ct look w 0 s := by
  obtain ⟨ss', h1, h2, -⟩ := C54_exact hct hw hd hg hne h
  rw [hs] at h1
  cases h1
  exact fun s hs' => route_accounted hct hp s 0 0 (.inl rfl) (h2 s hs')

/-- So a consonant other than ห ร อ ว ย that is not silenced and stands in no dictionary word is heard in every listed
pronunciation. -/
theorem C87_heard (hct : ct.Ok) (hw : fromBytes word = .ok w) (hd : Holds p.exceptDict look) (hg : GoodLook look)
    (hp : WordsPlaced look w) (hne : w ≠ []) (h : p.parseWord ct word = .ok d) (hs : PronunDAG.sylStrings d 0 = .ok ss)
    {m c : Nat} (hm : w[m]? = some c) (hc : ct.isCons c = true) (hn : ¬ InWord look w m) (hk : ¬ Silenced ct w m)
    (hl : c ∉ u!"หรอวย") : ∀ s ∈ ss, ∃ x ∈ s, HeardIn c x :=
  fun s hs' => accounted_heard hct hm hc hn hk hl s 0 (Nat.zero_le _) (C87_accounted hct hw hd hg hp hne h hs s hs')

/-- Without dictionary. -/
theorem C87_plain (hct : ct.Ok) (hw : fromBytes word = .ok w) (hd : p.exceptDict = none) (hne : w ≠ [])
    (h : p.parseWord ct word = .ok d) (hs : PronunDAG.sylStrings d 0 = .ok ss) :
    ∀ s ∈ ss, AllAccounted ct (fun _ => none) w 0 s ∧
      ∀ m c, w[m]? = some c → ct.isCons c = true → ¬ Silenced ct w m → c ∉ u!"หรอวย" → ∃ x ∈ s, HeardIn c x := by
  have hd' : Holds p.exceptDict fun _ => none := by rw [hd]; exact holds_none
  have hg : GoodLook fun _ => none := fun v data h => by cases h
  have hp : WordsPlaced (fun _ => none) w := fun _ _ _ _ _ h => by cases h
  have hn : ∀ m, ¬ InWord (fun _ => none) w m := fun m ⟨_, _, _, _, h⟩ => h rfl
  exact fun s hs' => ⟨C87_accounted hct hw hd' hg hp hne h hs s hs', fun m c hm hc hk hl =>
    C87_heard hct hw hd' hg hp hne h hs hm hc (hn m) hk hl s hs'⟩

/-- Without dictionary, a text without thanthakhat has at most three consonants other than ห ร อ ว ย for every syllable. -/
theorem C87_count (hct : ct.Ok) (hw : fromBytes word = .ok w) (hd : p.exceptDict = none) (hne : w ≠ [])
    (hk : ch!"์" ∉ w) (h : p.parseWord ct word = .ok d) (hs : PronunDAG.sylStrings d 0 = .ok ss) :
    ∀ s ∈ ss, (w.filter fun c => ct.isCons c ∧ c ∉ u!"หรอวย").length ≤ 3 * (s.filter fun x => x.literal = []).length := by
  intro s hs'
  have := accounted_count (fun c => ct.isCons c ∧ c ∉ u!"หรอวย") (fun m c i k v f h1 h2 => ?_) s 0
    (C87_plain hct hw hd hne h hs s hs').1
  · simpa using this
  · obtain ⟨h2, h3⟩ := of_decide_eq_true h2
    refine ⟨h2, fun ⟨_, _, _, _, h⟩ => h rfl, fun hu => ?_⟩
    simp only [List.mem_cons, List.not_mem_nil, or_false, not_or] at h3
    rcases hu with ⟨-, hu⟩ | ⟨hu, -⟩ | ⟨hu, -⟩ | ⟨hu, -⟩ | ⟨-, -, ⟨hu, -⟩ | ⟨hu, -⟩ | ⟨hu, -⟩ | ⟨hu, -⟩⟩
    · rcases hu with hu | ⟨hu, -⟩
      · exact hk (List.mem_of_getElem? hu)
      · exact hk (List.mem_of_getElem? hu)
    all_goals omega

/-- The syllables of the dictionary that is shipped end in their words. -/
theorem C87_data (w : U16Str) : WordsPlaced (lastData exceptEntries) w := by
  intro p q data strs str hl hdata hstr
  unfold lastData at hl
  obtain ⟨e, he, rfl⟩ := Option.map_eq_some_iff.mp hl
  have key : ∀ e ∈ exceptEntries, (match SylString.makeSylStrings e.data with
      | .ok strs => strs.all fun str => (wordEdges 0 0 str).all fun x =>
          (placeB e.word x.key).isSome && (placeB e.word x.target).any fun b => decide (b ≤ e.word.length)
      | _ => true) = true := by decide +kernel
  have hk := key e (List.mem_reverse.mp (List.mem_of_find?_eq_some he))
  rw [(makeSylStrings_iff _ _).mpr hdata] at hk
  have hw : e.word = piece w p q := by simpa using List.find?_some he
  rw [← hw]
  intro x hx
  have := List.all_eq_true.mp (List.all_eq_true.mp hk str hstr) x hx
  simp only [Bool.and_eq_true, Option.isSome_iff_exists, Option.any_eq_true, decide_eq_true_eq] at this
  obtain ⟨⟨a, h1⟩, b, h2, h3⟩ := this
  exact ⟨a, b, placeB_sound h1, placeB_sound h2, h3⟩

/-- With the shipped dictionary. -/
theorem C87_shipped (hct : ct.Ok) (hw : fromBytes word = .ok w) (hd : Holds p.exceptDict (lastData exceptEntries))
    (hne : w ≠ []) (h : p.parseWord ct word = .ok d) (hs : PronunDAG.sylStrings d 0 = .ok ss) :
    ∀ s ∈ ss, AllAccounted ct (lastData exceptEntries) w 0 s ∧
      ∀ m c, w[m]? = some c → ct.isCons c = true → ¬ InWord (lastData exceptEntries) w m → ¬ Silenced ct w m →
        c ∉ u!"หรอวย" → ∃ x ∈ s, HeardIn c x := by
  have hg : GoodLook (lastData exceptEntries) := C48_good _ fun _ h => h
  exact fun s hs' => ⟨C87_accounted hct hw hd hg (C87_data w) hne h hs s hs', fun m c hm hc hn hk hl =>
    C87_heard hct hw hd hg (C87_data w) hne h hs hm hc hn hk hl s hs'⟩

/-- Each of ห ร อ ว ย can be silent, and so can a silenced letter: หมา จริง มือ ตัว เสีย ศุกร์ and สัตว์ have a
pronunciation of one syllable in which it is not heard. -/
example : ∀ x ∈ [(u!"หมา", ch!"ห"), (u!"จริง", ch!"ร"), (u!"มือ", ch!"อ"), (u!"ตัว", ch!"ว"), (u!"เสีย", ch!"ย"),
      (u!"ศุกร์", ch!"ร"), (u!"สัตว์", ch!"ว")],
    parsesTo 60 x.1 none [] (fun d => match PronunDAG.sylStrings d 0 with
      | .ok ss => ss.any fun s => decide (s.length = 1) && s.all fun y => decide (x.2 ∉ soundLetters y.iCons1 ∧
          y.iCons2 = SC.NONE ∧ (x.2 ∈ finalLetters y.eCons → y.eCons = .NONE))
      | _ => false) = true := by decide +kernel

/-- Such a text: ตลาด has pronunciations, and ต, ล and ด are heard in all of them; ตลาด is no dictionary word. -/
example : parsesTo 60 u!"ตลาด" none [] (fun d => match PronunDAG.sylStrings d 0 with
      | .ok ss => !ss.isEmpty && ss.all fun s => u!"ตลด".all fun c => s.any fun y =>
          decide (c ∈ soundLetters y.iCons1 ∨ y.iCons2 = SC.LA ∧ c = ch!"ล" ∨ c ∈ finalLetters y.eCons ∧ y.eCons ≠ .NONE)
      | _ => false) = true ∧ ∀ e ∈ exceptEntries, ¬ e.word <:+: u!"ตลาด" := by decide +kernel

end Thpronun
