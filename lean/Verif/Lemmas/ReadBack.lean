import Verif.Lemmas.Respell
import Verif.Props.Spelling

/-! # Reading the respelling back -/

namespace Thpronun
open Spec

/-- The onset of the respelling is one that the parser knows, and the mark gives the tone. -/
def onsetB (on : U16Str) (snd : InitConsSound) (cls : InitConsClass) (sec : SecInitCons) : Bool :=
  match on with
  | [c] => decide (IsConsonant c ∧ c ∈ soundLetters snd ∧ c ∈ classLetters cls ∧ sec = SC.NONE)
  | [c, d] =>
    decide (IsConsonant c ∧ c ∈ soundLetters snd ∧ c ∈ classLetters cls ∧ ∃ e ∈ trueClusters, e.2 = (d, sec) ∧ c ∈ e.1) ||
    decide (c = ch!"ห" ∧ IsConsonant d ∧ d ∈ soundLetters snd ∧ d ∈ classLetters .LOWS ∧ cls = .HIGH ∧ sec = SC.NONE)
  | _ => false

theorem onsetB_text {on snd cls sec} (h : onsetB on snd cls sec = true) : OnsetText on snd cls sec := by
  unfold onsetB at h
  split at h
  · simp only [decide_eq_true_eq] at h
    exact .inl ⟨_, rfl, h⟩
  · simp only [Bool.or_eq_true, decide_eq_true_eq] at h
    rcases h with ⟨h1, h2, h3, ⟨cs, d', s'⟩, he, hd, hc⟩ | ⟨rfl, h⟩
    · cases hd
      exact .inr (.inl ⟨_, _, cs, rfl, h1, h2, h3, he, hc⟩)
    · exact .inr (.inr (.inl ⟨_, rfl, h⟩))
  · cases h

theorem onset_table : ∀ i ∈ allInit, ∀ c ∈ Spec.clusters, ∀ t ∈ allTones, ∀ dead short : Bool,
    let x := chosenWay i dead short t
    (¬ (dead = true ∧ t = .SAMAN) → prescribed x.1 x.2.2.2 dead short = some t) ∧
    ((c = SC.NONE ∨ ∃ e ∈ trueClusters, e.2.2 = c ∧ x.2.1.headD 0 ∈ e.1) →
      onsetB (plain (x.2.1 ++ secondText c)) i x.1 c = true) ∧
    (x.2.2.1, x.2.2.2) ∈ markTries := by
  decide +kernel

/-- The frame, as one of the patterns. -/
def FrameOk (v : Vowel) (e : EndConsClass) (lead sign tl fin : U16Str) (m : Bool) : Prop :=
  plain lead = lead ∧ plain sign = sign ∧ plain tl = tl ∧ plain fin = fin ∧ ch!"ร" ∉ sign ++ tl ++ fin ∧
    ((fin = [] ∧ ∃ p ∈ openPatterns, p.lead = lead ∧ p.sign = sign ∧ p.tail = tl ∧ p.vowel = v ∧ p.final = e) ∨
     (∃ x ∈ fin, fin = [x] ∧ IsConsonant x ∧ x ∈ finalLetters e ∧ e ≠ .NONE ∧ ∃ p ∈ closedPatterns, p.lead = lead ∧
       p.sign = sign ∧ p.tail = tl ∧ p.vowel = v ∧ x ∉ p.excl ∧ (p.markable = false → m = false)))

instance (v e a b c d m) : Decidable (FrameOk v e a b c d m) := by unfold FrameOk; infer_instance

theorem frame_table : ∀ v ∈ vowels, ∀ e ∈ [EndConsClass.NONE, .KOK, .KOT, .KOP, .KONG, .KON, .KOM, .KOEY, .KOEW],
    ∀ m : Bool, HasSpelling v e m →
      FrameOk v e (frameOf v e).1.1 (if (frameOf v e).1.2.1 = u!"็" ∧ m = true then [] else (frameOf v e).1.2.1)
        (frameOf v e).1.2.2 (frameOf v e).2 m := by
  decide +kernel

theorem plain_append (a b : U16Str) : plain (a ++ b) = plain a ++ plain b := List.filter_append ..

theorem mark_plain : ∀ k ∈ markTries, plain k.1 = k.1 ∧ ch!"ร" ∉ k.1 ∧ Marked k.1 k.2 := by
  intro k hk
  simp only [markTries, List.mem_cons, List.not_mem_nil, or_false] at hk
  rcases hk with rfl | rfl | rfl | rfl | rfl
  · exact ⟨rfl, by decide, .inl ⟨rfl, rfl⟩⟩
  all_goals exact ⟨rfl, by decide, .inr ⟨_, by decide, rfl⟩⟩

theorem head_not {a b c d : U16Str} {x : Nat} (h : x ∉ a ++ c ++ d) (hb : x ∉ b) :
    (a ++ b ++ c ++ d).head? ≠ some x := by
  intro h'
  have := List.mem_of_mem_head? h'
  simp only [List.mem_append] at this h
  tauto

theorem tone_back {s : Syl} (hv : HasSpelling s.vowel s.eCons b) (hval : ValidSyl s) :
    spelledDead s = decide (Dead s.vowel s.eCons) ∧ spelledShort s = decide (s.vowel ∈ shortVowels) := by
  obtain ⟨i, c, v, e, t, l, p⟩ := s
  have h : v ∈ vowels := hval.vowel
  have key : ∀ v ∈ vowels, ∀ e ∈ [EndConsClass.NONE, .KOK, .KOT, .KOP, .KONG, .KON, .KOM, .KOEY, .KOEW], ∀ b,
      HasSpelling v e b →
      (isShort v && !(decide (v ∈ (b!"yzw").map fun (n : Nat) => (n : Int)) && decide (e ≠ .NONE))) =
        decide (v ∈ shortVowels) ∧
      (isStop e || (decide (v ∈ shortVowels) && decide (e = .NONE))) = decide (Dead v e) := by decide +kernel
  obtain ⟨h1, h2⟩ := key v h e (by cases e <;> decide) b hv
  exact ⟨by unfold spelledDead spelledShort; simp only [h1, h2], h1⟩

theorem way_thai : ∀ i ∈ allInit, ∀ c ∈ Spec.clusters, ∀ t ∈ allTones, ∀ dead short : Bool,
    ∀ x ∈ (chosenWay i dead short t).2.1 ++ secondText c ++ (chosenWay i dead short t).2.2.1, x < 0xd800 := by
  decide +kernel

theorem frame_thai : ∀ v ∈ vowels, ∀ e ∈ [EndConsClass.NONE, .KOK, .KOT, .KOP, .KONG, .KON, .KOM, .KOEY, .KOEW],
    ∀ x ∈ (frameOf v e).1.1 ++ (frameOf v e).1.2.1 ++ (frameOf v e).1.2.2 ++ (frameOf v e).2, x < 0xd800 := by
  decide +kernel

theorem respelled_thai {s : Syl} (h : ValidSyl s) : ∀ x ∈ respelled s, x < 0xd800 := by
  intro x hx
  have h1 := way_thai s.iCons1 (mem_allInit h.iCons1) s.iCons2 h.iCons2 s.tone (mem_allTones h.tone)
    (spelledDead s) (spelledShort s) x
  have h2 := frame_thai s.vowel h.vowel s.eCons (by cases s.eCons <;> decide) x
  unfold respelled framed at hx
  simp only [List.mem_append] at hx h1 h2
  split at hx
  · simp only [List.not_mem_nil] at hx; tauto
  · tauto

theorem enc16_bmp {w : U16Str} (h : ∀ x ∈ w, x < 0xd800) : enc16 w = w := by
  induction w with
  | nil => rfl
  | cons c w ih =>
    rw [enc16_cons, ih fun x hx => h x (by simp [hx])]
    have := h c (by simp)
    have e : utf16EncodeOne c = [c] := by unfold utf16EncodeOne; rw [if_pos (by omega)]
    rw [e]; rfl

/-- The respelling of a respellable syllable, without the dots, is listed with that syllable as a reading. -/
theorem read_back {p : Parser} {s : Syl} (h : ValidSyl s) (hr : Respellable s) (hd : p.exceptDict = none)
    {word : Str} (hw : fromBytes word = .ok (plain (respelled s)))
    (hb : ∀ b ∈ findBreaks (plain (respelled s)) p.thBrk, b ≤ 0 ∨ b = (plain (respelled s)).length) :
    ∃ d ss x, p.parseWord thaiCType word = .ok d ∧ PronunDAG.sylStrings d 0 = .ok ss ∧ [x] ∈ ss ∧
      ceq x s = true := by
  obtain ⟨h1, h2, h3⟩ := hr
  obtain ⟨hdead, hshort⟩ := tone_back h2 h
  obtain ⟨t1, t2, t3⟩ := onset_table s.iCons1 (mem_allInit h.iCons1) s.iCons2 h.iCons2 s.tone (mem_allTones h.tone)
    (spelledDead s) (spelledShort s)
  have f := frame_table s.vowel h.vowel s.eCons (by cases s.eCons <;> decide) _ h2
  have hon := onsetB_text (t2 (h3.imp id fun x => x.1))
  have htone := t1 h1
  have hsp : spokenTone (chosenWay s.iCons1 (spelledDead s) (spelledShort s) s.tone).1 s.vowel s.eCons
      (chosenWay s.iCons1 (spelledDead s) (spelledShort s) s.tone).2.2.2 = s.tone := by
    unfold spokenTone
    rw [← hdead, ← hshort, htone]
    rfl
  have hresp : plain (respelled s) = plain (framed (frameOf s.vowel s.eCons).1
      ((chosenWay s.iCons1 (spelledDead s) (spelledShort s) s.tone).2.1 ++ secondText s.iCons2)
      (chosenWay s.iCons1 (spelledDead s) (spelledShort s) s.tone).2.2.1 (frameOf s.vowel s.eCons).2) := rfl
  generalize chosenWay s.iCons1 (spelledDead s) (spelledShort s) s.tone = x at *
  obtain ⟨cls, on, mk, m⟩ := x
  obtain ⟨k1, k2, k3⟩ := mark_plain _ t3
  simp only at *
  generalize frameOf s.vowel s.eCons = F at *
  obtain ⟨⟨lead, sg, tl⟩, fin⟩ := F
  simp only [decide_eq_true_eq] at *
  obtain ⟨f1, f2, f3, f4, f5, f6⟩ := f
  have hword : plain (respelled s) = lead ++ plain (on ++ secondText s.iCons2) ++
      (if sg = u!"็" ∧ mk ≠ [] then [] else sg) ++ mk ++ tl ++ fin := by
    rw [hresp, framed]
    simp only [plain_append] at *
    rw [f1, f2, f3, f4, k1]
  generalize (if sg = u!"็" ∧ mk ≠ [] then [] else sg) = sign at *
  have hlit : s.literal = [] := by
    have := h.not_literal
    simpa [Syl.isLiteral] using this
  rcases f6 with ⟨rfl, pat, hpat, rfl, rfl, rfl, hv, he⟩ | ⟨y, -, rfl, hy, hye, hne, pat, hpat, rfl, rfl, rfl, hv, hex, hmk⟩
  · obtain ⟨d, ss, x, q1, q2, q3, q4, -⟩ := C49_open hw hd hb hon hpat k3
      (fun _ _ => by simpa using head_not f5 k2) hword
    refine ⟨d, ss, x, q1, q2, q3, ?_⟩
    replace q4 := (Syl.eq_iff x _).mp q4
    refine (Syl.eq_iff x _).mpr ?_
    simp only [hv, he, hsp] at q4
    rw [hlit]
    exact q4
  · have hmk' : pat.markable = false → mk = [] ∧ m = .SAMAN := by
      intro hm
      have hnil : mk = [] := by simpa using hmk hm
      rcases k3 with k3 | ⟨z, -, hz⟩
      · exact k3
      · exact absurd hnil (by rw [hz]; simp)
    have hwa : pat.vowel = VW.O → s.iCons2 ≠ SC.WA := by
      intro hO hW
      rcases h3 with h3 | h3
      · rw [h3] at hW; exact absurd hW (by decide)
      · exact h3.2 ⟨hW, hv ▸ hO, hne⟩
    obtain ⟨d, ss, x, q1, q2, q3, q4, -⟩ := C49_closed hw hd hb hon hpat k3 hmk' hy hye hne hex hwa
      (fun _ _ => head_not f5 k2) hword
    refine ⟨d, ss, x, q1, q2, q3, ?_⟩
    replace q4 := (Syl.eq_iff x _).mp q4
    refine (Syl.eq_iff x _).mpr ?_
    simp only [hv, hsp] at q4
    rw [hlit]
    exact q4

end Thpronun
