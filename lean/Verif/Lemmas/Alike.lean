import Verif.Spec.Alike
import Verif.Lemmas.Split
import Verif.Lemmas.Respell
import Verif.Lemmas.ReadBack

/-! # Which syllables are written alike -/

namespace Thpronun
open Spec

/-! ## The parts of a respelling -/

/-- High letter and mark, by class. -/
def pick (mid dead short : Bool) (t : Tone) : Bool × U16Str :=
  match mid, dead, short, t with
  | _, false, _, .SAMAN => (false, [])
  | true, false, _, .EK => (false, u!"่")
  | true, false, _, .THO => (false, u!"้")
  | true, _, _, .TRI => (false, u!"๊")
  | true, _, _, .CHATTAWA => (false, u!"๋")
  | true, true, _, .THO => (false, u!"้")
  | false, false, _, .EK => (true, u!"่")
  | false, false, _, .THO => (false, u!"่")
  | false, false, _, .TRI => (false, u!"้")
  | false, false, _, .CHATTAWA => (true, [])
  | false, true, _, .EK => (true, [])
  | false, true, true, .THO => (false, u!"่")
  | false, true, false, .TRI => (false, u!"้")
  | false, true, _, .CHATTAWA => (false, u!"๋")
  | _, _, _, _ => (false, [])

def wayOf (i : InitConsSound) (hi : Bool) : U16Str := ((ways i).getD (if hi then 1 else 0) (.INVALID, [])).2

theorem chosenWay_pick : ∀ i ∈ allInit, ∀ t ∈ allTones, ∀ dead short,
    (chosenWay i dead short t).2.1 = wayOf i (pick (midInitial i) dead short t).1 ∧
    (chosenWay i dead short t).2.2.1 = (pick (midInitial i) dead short t).2 ∧
    (midInitial i = true → (pick (midInitial i) dead short t).1 = false) := by decide +kernel

def onsetText (i : InitConsSound) (c : SecInitCons) (hi : Bool) : U16Str := wayOf i hi ++ secondText c

def sh (v : Vowel) (e : EndConsClass) : Bool := spelledShort ⟨.KA, SC.NONE, v, e, .SAMAN, [], -1⟩
def dd (v : Vowel) (e : EndConsClass) : Bool := spelledDead ⟨.KA, SC.NONE, v, e, .SAMAN, [], -1⟩
def preText (v : Vowel) (e : EndConsClass) : U16Str := (frameOf v e).1.1
def postText (v : Vowel) (e : EndConsClass) (mk : U16Str) : U16Str :=
  let f := frameOf v e
  (if f.1.2.1 = u!"็" ∧ mk ≠ [] then [] else f.1.2.1) ++ mk ++ f.1.2.2 ++ f.2

def pickOf (s : Syl) : Bool × U16Str := pick (midInitial s.iCons1) (dd s.vowel s.eCons) (sh s.vowel s.eCons) s.tone

theorem respelling_cut (s : Syl) (h : ValidSyl s) : respelled s = preText s.vowel s.eCons ++
    (onsetText s.iCons1 s.iCons2 (pickOf s).1 ++ postText s.vowel s.eCons (pickOf s).2) := by
  obtain ⟨h1, h2, _⟩ := chosenWay_pick s.iCons1 (mem_allInit h.iCons1) s.tone (mem_allTones h.tone)
    (dd s.vowel s.eCons) (sh s.vowel s.eCons)
  have hd : spelledDead s = dd s.vowel s.eCons := rfl
  have hs : spelledShort s = sh s.vowel s.eCons := rfl
  unfold respelled framed
  dsimp only
  rw [hd, hs, h1, h2]
  simp only [preText, postText, onsetText, pickOf, List.append_assoc]
  rfl

/-! ## Taking a respelling apart -/

def dotted : U16Str → Bool
  | [] => false
  | [_] => true
  | _ :: b :: r => decide (b = ch!"ฺ") && dotted r

def cutOnset : U16Str → U16Str × U16Str
  | [] => ([], [])
  | [a] => ([a], [])
  | a :: b :: r => if b = ch!"ฺ" then (a :: b :: (cutOnset r).1, (cutOnset r).2) else ([a], b :: r)

theorem cutOnset_append : ∀ (o p : U16Str), dotted o = true → p.head? ≠ some ch!"ฺ" → cutOnset (o ++ p) = (o, p)
  | [], _, h, _ => by simp [dotted] at h
  | [a], [], _, _ => rfl
  | [a], b :: p, _, hp => by
    have : b ≠ ch!"ฺ" := by simpa using hp
    simp [cutOnset, this]
  | a :: b :: r, p, h, hp => by
    simp only [dotted, Bool.and_eq_true, decide_eq_true_eq] at h
    have := cutOnset_append r p h.2 hp
    simp [cutOnset, h.1, this]

theorem onset_dotted : ∀ i ∈ allInit, ∀ c ∈ Spec.clusters, ∀ hi, (midInitial i = true → hi = false) →
    dotted (onsetText i c hi) = true ∧ ∀ x ∈ (onsetText i c hi).head?, x ∉ u!"เแโ" := by decide +kernel

def allSigns : List U16Str := [[], u!"่", u!"้", u!"๊", u!"๋"]

theorem pick_marks : ∀ mid dead short, ∀ t ∈ allTones, (pick mid dead short t).2 ∈ allSigns := by decide +kernel

theorem pre_table : ∀ v ∈ vowels, ∀ e ∈ allEnd, preText v e ∈ [[], u!"เ", u!"แ", u!"โ"] := by decide +kernel

theorem post_table : ∀ v ∈ vowels, ∀ e ∈ allEnd, ∀ mk ∈ allSigns, (postText v e mk).head? ≠ some ch!"ฺ" ∧
    (postText v e mk).filter (fun x => decide (x ∈ u!"่้๊๋")) = mk := by decide +kernel

theorem pre_inj {p p' x x' : U16Str} (hp : p ∈ [[], u!"เ", u!"แ", u!"โ"]) (hp' : p' ∈ [[], u!"เ", u!"แ", u!"โ"])
    (hx : ∀ a ∈ x.head?, a ∉ u!"เแโ") (hx' : ∀ a ∈ x'.head?, a ∉ u!"เแโ") (h : p ++ x = p' ++ x') : p = p' ∧ x = x' := by
  have key : ∀ p ∈ ([[], u!"เ", u!"แ", u!"โ"] : List U16Str), ∀ x : U16Str, (∀ a ∈ x.head?, a ∉ u!"เแโ") →
      (p ++ x).takeWhile (fun a => decide (a ∈ u!"เแโ")) = p := by
    intro p hp x hx
    simp only [List.mem_cons, List.not_mem_nil, or_false] at hp
    rcases hp with rfl | rfl | rfl | rfl <;> cases x <;> simp_all
  have e : p = p' := by rw [← key p hp x hx, h, key p' hp' x' hx']
  subst e
  exact ⟨rfl, List.append_cancel_left h⟩

/-! ## The tables -/

def onsetKey (i : InitConsSound) (c : SecInitCons) (hi : Bool) : InitConsSound × SecInitCons :=
  if i = .HA ∧ c ≠ SC.NONE ∧ hi = true then (alone c, SC.NONE) else (i, c)

/-- A text as a number (for quick comparison). -/
def textCode (l : U16Str) : Nat := l.foldl (fun a x => a * 8192 + x) 0

def onsetCheck (i : InitConsSound) (c : SecInitCons) (hi : Bool) (i' : InitConsSound) (c' : SecInitCons) (hi' : Bool) : Bool :=
  !Nat.beq (textCode (onsetText i c hi)) (textCode (onsetText i' c' hi')) || (midInitial i && hi) || (midInitial i' && hi') ||
    decide (midInitial i = midInitial i' ∧ hi = hi' ∧ onsetKey i c hi = onsetKey i' c' hi')

theorem onset_pairs : (allInit.all fun i => Spec.clusters.all fun c => [true, false].all fun hi => allInit.all fun i' =>
    Spec.clusters.all fun c' => [true, false].all fun hi' => onsetCheck i c hi i' c' hi') = true := by decide +kernel

theorem onsetText_table {i c hi i' c' hi'} (hi1 : i ∈ allInit) (hc : c ∈ Spec.clusters)
    (hh : midInitial i = true → hi = false) (hi1' : i' ∈ allInit) (hc' : c' ∈ Spec.clusters)
    (hh' : midInitial i' = true → hi' = false) (he : onsetText i c hi = onsetText i' c' hi') :
    midInitial i = midInitial i' ∧ hi = hi' ∧ onsetKey i c hi = onsetKey i' c' hi' := by
  have h := onset_pairs
  simp only [List.all_eq_true] at h
  have h := h i hi1 c hc hi (by cases hi <;> decide) i' hi1' c' hc' hi' (by cases hi' <;> decide)
  unfold onsetCheck at h
  have n : ∀ i hi, (midInitial i = true → hi = false) → (midInitial i && hi) = false := by
    intro i hi hh
    cases hm : midInitial i with
    | false => rfl
    | true => rw [hh hm]; rfl
  have r : ∀ n, Nat.beq n n = true := Nat.beq_refl
  rw [he, r, n i hi hh, n i' hi' hh'] at h
  simpa only [Bool.not_true, Bool.false_or, decide_eq_true_eq] using h

theorem onsetKey_same : ∀ i ∈ allInit, ∀ c ∈ Spec.clusters, ∀ hi, (midInitial i = true → hi = false) →
    midInitial (onsetKey i c hi).1 = midInitial i ∧ (onsetKey i c hi).1 ∈ allInit ∧ (onsetKey i c hi).2 ∈ Spec.clusters ∧
    onsetText (onsetKey i c hi).1 (onsetKey i c hi).2 hi = onsetText i c hi := by decide +kernel

/-- Vowel and tone as written depend on the class only. -/
def plainSyl (mid : Bool) (v : Vowel) (e : EndConsClass) (t : Tone) : Syl :=
  ⟨if mid then .KA else .KHA, SC.NONE, v, e, t, [], -1⟩

def keyOf (mid : Bool) (v : Vowel) (e : EndConsClass) (t : Tone) : Vowel × Tone :=
  (vowelAsWritten (plainSyl mid v e t), toneAsWritten (plainSyl mid v e t))

theorem keyOf_eq (s : Syl) : keyOf (midInitial s.iCons1) s.vowel s.eCons s.tone = (vowelAsWritten s, toneAsWritten s) := by
  have hm : midInitial (if midInitial s.iCons1 then InitConsSound.KA else .KHA) = midInitial s.iCons1 := by
    cases midInitial s.iCons1 <;> decide
  have ht : toneAsWritten (plainSyl (midInitial s.iCons1) s.vowel s.eCons s.tone) = toneAsWritten s := by
    unfold toneAsWritten
    rw [show (plainSyl (midInitial s.iCons1) s.vowel s.eCons s.tone).iCons1 =
      (if midInitial s.iCons1 then InitConsSound.KA else .KHA) from rfl, hm]
    rfl
  have hu : shortUnwritten (plainSyl (midInitial s.iCons1) s.vowel s.eCons s.tone) = shortUnwritten s := by
    unfold shortUnwritten
    rw [ht, show (plainSyl (midInitial s.iCons1) s.vowel s.eCons s.tone).iCons1 =
      (if midInitial s.iCons1 then InitConsSound.KA else .KHA) from rfl, hm]
    rfl
  unfold keyOf
  rw [ht]
  unfold vowelAsWritten
  rw [hu]
  rfl

theorem high_table : ∀ v ∈ vowels, ∀ e ∈ allEnd, ∀ t ∈ allTones, (pick false (dd v e) (sh v e) t).1 =
    decide ((keyOf false v e t).2 = .EK ∨ ((keyOf false v e t).2 = .CHATTAWA ∧ dd v e = false)) := by decide +kernel

theorem key_table : ∀ mid, ∀ v ∈ vowels, ∀ e ∈ allEnd, ∀ t ∈ allTones, ∃ w ∈ vowels, (keyOf mid v e t).1 = w ∧
    ∃ u ∈ allTones, (keyOf mid v e t).2 = u ∧ preText w e = preText v e ∧
      pick mid (dd w e) (sh w e) u = pick mid (dd v e) (sh v e) t ∧
      postText w e (pick mid (dd v e) (sh v e) t).2 = postText v e (pick mid (dd v e) (sh v e) t).2 := by decide +kernel

theorem key_same (mid : Bool) (v : Vowel) (hv : v ∈ vowels) (e : EndConsClass) (he : e ∈ allEnd) (t : Tone)
    (ht : t ∈ allTones) : let k := keyOf mid v e t
    k.1 ∈ vowels ∧ k.2 ∈ allTones ∧ preText k.1 e = preText v e ∧
      pick mid (dd k.1 e) (sh k.1 e) k.2 = pick mid (dd v e) (sh v e) t ∧
      postText k.1 e (pick mid (dd v e) (sh v e) t).2 = postText v e (pick mid (dd v e) (sh v e) t).2 := by
  obtain ⟨w, hw, rfl, u, hu, rfl, h⟩ := key_table mid v hv e he t ht
  exact ⟨hw, hu, h⟩

def rimeCode (v : Vowel) (e : EndConsClass) (mk : U16Str) : Nat := textCode (preText v e ++ 0 :: postText v e mk)

def rimeCheck (mk : U16Str) (v : Vowel) (e : EndConsClass) (v' : Vowel) (e' : EndConsClass) : Bool :=
  !Nat.beq (rimeCode v e mk) (rimeCode v' e' mk) || [true, false].all fun mid => allTones.all fun t =>
    decide (((pick mid (dd v e) (sh v e) t).2 = []) ≠ (mk = [])) || allTones.all fun t' =>
      decide (pick mid (dd v e) (sh v e) t ≠ pick mid (dd v' e') (sh v' e') t') ||
        decide (e = e' ∧ keyOf mid v e t = keyOf mid v' e' t')

theorem marks_alike : ∀ mk ∈ allSigns, ∀ v ∈ vowels, ∀ e ∈ allEnd, mk = [] ∨ postText v e u!"่" =
    (postText v e mk).map fun x => if x ∈ u!"่้๊๋" then ch!"่" else x := by decide +kernel

theorem rime_pairs : ([[], u!"่"].all fun mk => vowels.all fun v => allEnd.all fun e => vowels.all fun v' =>
    allEnd.all fun e' => rimeCheck mk v e v' e') = true := by decide +kernel

theorem rime_table {mk} (hk : mk ∈ allSigns) {v} (hv : v ∈ vowels) (e : EndConsClass) {v'} (hv' : v' ∈ vowels)
    (e' : EndConsClass) (h1 : preText v e = preText v' e') (h2 : postText v e mk = postText v' e' mk) (mid : Bool) {t}
    (ht : t ∈ allTones) {t'} (ht' : t' ∈ allTones) (h3 : (pick mid (dd v e) (sh v e) t).2 = mk)
    (h4 : pick mid (dd v e) (sh v e) t = pick mid (dd v' e') (sh v' e') t') :
    e = e' ∧ keyOf mid v e t = keyOf mid v' e' t' := by
  have h := rime_pairs
  simp only [List.all_eq_true] at h
  have h2' : postText v e (if mk = [] then [] else u!"่") = postText v' e' (if mk = [] then [] else u!"่") := by
    split
    · rename_i h0; rw [← h0]; exact h2
    · rename_i h0
      rw [(marks_alike mk hk v hv e (mem_allEnd e)).resolve_left h0, h2,
        ← (marks_alike mk hk v' hv' e' (mem_allEnd e')).resolve_left h0]
  have h := h (if mk = [] then [] else u!"่") (by split <;> decide) v hv e (mem_allEnd e) v' hv' e' (mem_allEnd e')
  have r : ∀ n, Nat.beq n n = true := Nat.beq_refl
  unfold rimeCheck at h
  rw [show rimeCode v e _ = rimeCode v' e' _ by unfold rimeCode; rw [h1, h2'], r] at h
  simp only [Bool.not_true, Bool.false_or, List.all_eq_true] at h
  have h := h mid (by cases mid <;> decide) t ht
  rw [decide_eq_false (not_not_intro (by rw [h3]; by_cases h0 : mk = [] <;> simp [h0]))] at h
  simp only [Bool.false_or, List.all_eq_true] at h
  have h := h t' ht'
  rw [decide_eq_false (not_not_intro h4)] at h
  simpa only [Bool.false_or, decide_eq_true_eq] using h

theorem pickOf_mid (s : Syl) (h : ValidSyl s) : midInitial s.iCons1 = true → (pickOf s).1 = false :=
  (chosenWay_pick s.iCons1 (mem_allInit h.iCons1) s.tone (mem_allTones h.tone) (dd s.vowel s.eCons)
    (sh s.vowel s.eCons)).2.2

theorem onsetAsWritten_key (s : Syl) (h : ValidSyl s) :
    onsetAsWritten s = onsetKey s.iCons1 s.iCons2 (pickOf s).1 := by
  unfold onsetAsWritten onsetKey
  by_cases hi : s.iCons1 = .HA
  · have hm : midInitial s.iCons1 = false := by rw [hi]; rfl
    have hk := keyOf_eq s
    rw [hm] at hk
    have := high_table s.vowel h.vowel s.eCons (mem_allEnd _) s.tone (mem_allTones h.tone)
    rw [hk] at this
    unfold pickOf
    rw [hm, this]
    simp only [decide_eq_true_eq]
    rfl
  · simp [hi]

/-- The same syllable up to the end position. -/
theorem asWritten_valid (s : Syl) (h : ValidSyl s) : ValidSyl (asWritten s) := by
  have hk := key_same (midInitial s.iCons1) s.vowel h.vowel s.eCons (mem_allEnd _) s.tone (mem_allTones h.tone)
  have ho := onsetKey_same s.iCons1 (mem_allInit h.iCons1) s.iCons2 h.iCons2 (pickOf s).1 (pickOf_mid s h)
  rw [← onsetAsWritten_key s h] at ho
  rw [keyOf_eq s] at hk
  have ni : ∀ i ∈ allInit, i ≠ InitConsSound.INVALID := by decide
  have nt : ∀ t ∈ allTones, t ≠ Tone.INVALID := by decide
  exact ⟨h.literal, ni _ ho.2.1, ho.2.2.1, hk.1, nt _ hk.2.1⟩

theorem respelled_asWritten (s : Syl) (h : ValidSyl s) : respelled (asWritten s) = respelled s := by
  have hk := key_same (midInitial s.iCons1) s.vowel h.vowel s.eCons (mem_allEnd _) s.tone (mem_allTones h.tone)
  have ho := onsetKey_same s.iCons1 (mem_allInit h.iCons1) s.iCons2 h.iCons2 (pickOf s).1 (pickOf_mid s h)
  rw [← onsetAsWritten_key s h] at ho
  rw [keyOf_eq s] at hk
  obtain ⟨_, _, h3, h4, h5⟩ := hk
  obtain ⟨h6, _, _, h7⟩ := ho
  have hp : pickOf (asWritten s) = pickOf s := by
    change pick (midInitial (onsetAsWritten s).1) (dd (vowelAsWritten s) s.eCons) (sh (vowelAsWritten s) s.eCons)
      (toneAsWritten s) = _
    rw [h6]
    exact h4
  rw [respelling_cut _ (asWritten_valid s h), respelling_cut _ h, hp]
  change preText (vowelAsWritten s) s.eCons ++ (onsetText (onsetAsWritten s).1 (onsetAsWritten s).2 _ ++
    postText (vowelAsWritten s) s.eCons _) = _
  rw [h3, h7, show postText (vowelAsWritten s) s.eCons (pickOf s).2 = _ from h5]
  rfl

theorem respelled_alike (s s' : Syl) (h : ValidSyl s) (h' : ValidSyl s') (he : respelled s = respelled s') :
    ceq (asWritten s) (asWritten s') = true := by
  rw [respelling_cut s h, respelling_cut s' h'] at he
  have mi := mem_allInit h.iCons1
  have mi' := mem_allInit h'.iCons1
  have mt := mem_allTones h.tone
  have mt' := mem_allTones h'.tone
  have hd := onset_dotted _ mi _ h.iCons2 _ (pickOf_mid s h)
  have hd' := onset_dotted _ mi' _ h'.iCons2 _ (pickOf_mid s' h')
  have hne : ∀ o : U16Str, dotted o = true → ∀ p : U16Str, (o ++ p).head? = o.head? := by
    intro o ho p
    cases o with
    | nil => cases ho
    | cons a o => rfl
  obtain ⟨e1, e2⟩ := pre_inj (pre_table _ h.vowel _ (mem_allEnd _)) (pre_table _ h'.vowel _ (mem_allEnd _))
    (by rw [hne _ hd.1]; exact hd.2) (by rw [hne _ hd'.1]; exact hd'.2) he
  have hm : (pickOf s).2 ∈ allSigns := pick_marks _ _ _ _ mt
  have hm' : (pickOf s').2 ∈ allSigns := pick_marks _ _ _ _ mt'
  have hp := post_table _ h.vowel _ (mem_allEnd s.eCons) _ hm
  have hp' := post_table _ h'.vowel _ (mem_allEnd s'.eCons) _ hm'
  have hc := cutOnset_append _ _ hd.1 hp.1
  rw [e2, cutOnset_append _ _ hd'.1 hp'.1, Prod.mk.injEq] at hc
  obtain ⟨e3, e4⟩ := hc
  have e5 : (pickOf s).2 = (pickOf s').2 := by rw [← hp.2, ← e4, hp'.2]
  obtain ⟨e6, e7, e8⟩ := onsetText_table mi h.iCons2 (pickOf_mid s h) mi' h'.iCons2 (pickOf_mid s' h') e3.symm
  have epick : pickOf s = pickOf s' := Prod.ext e7 e5
  have hr := rime_table hm h.vowel s.eCons h'.vowel s'.eCons e1 (by rw [← e4, e5]) (midInitial s.iCons1) mt mt' rfl
    (by rw [show pick (midInitial s.iCons1) (dd s.vowel s.eCons) (sh s.vowel s.eCons) s.tone = pickOf s from rfl, epick, e6]
        rfl)
  rw [keyOf_eq s, e6, keyOf_eq s', Prod.mk.injEq] at hr
  rw [← onsetAsWritten_key s h, ← onsetAsWritten_key s' h'] at e8
  refine (Syl.eq_iff _ _).mpr ⟨by rw [show (asWritten s).literal = s.literal from rfl, h.literal]; exact h'.literal.symm,
    fun _ => ⟨congrArg Prod.fst e8, congrArg Prod.snd e8, hr.2.1, hr.1, hr.2.2⟩⟩

theorem enc8_respelled_inj (s s' : Syl) (h : ValidSyl s) (h' : ValidSyl s')
    (he : enc8 (respelled s) = enc8 (respelled s')) : respelled s = respelled s' := by
  have hs : ∀ s, ValidSyl s → ∀ c ∈ respelled s, isScalar c = true := fun s h c hc =>
    isScalar_iff.mpr (.inl (respelled_thai h c hc))
  have h1 := utf8Decode_enc8 _ (hs s h) []
  have h2 := utf8Decode_enc8 _ (hs s' h') []
  rw [he, h2] at h1
  simpa [utf8Decode] using h1.symm

/-! ## Romanization -/

def romOn (i : InitConsSound) (c : Int) : InitConsSound × Int :=
  let s : Syl := ⟨i, c, VW.A, .NONE, .SAMAN, [], -1⟩
  ((asRomanized s).iCons1, (asRomanized s).iCons2)

def romVow (v : Vowel) : Vowel := (asRomanized ⟨.KA, SC.NONE, v, .NONE, .SAMAN, [], -1⟩).vowel

def glide (e : EndConsClass) : EndConsClass := if e = .KOEY ∨ e = .KOEW then e else .NONE

theorem romOn_table : ∀ i ∈ allInit, ∀ c ∈ Spec.clusters, (romOn i c).1 ∈ allInit ∧ (romOn i c).2 ∈ Spec.clusters ∧
    rOn (romOn i c).1 (romOn i c).2 = rOn i c := by decide +kernel

theorem romOn_pairs : ∀ i ∈ allInit, ∀ c ∈ Spec.clusters, ∀ i' ∈ allInit, ∀ c' ∈ Spec.clusters,
    rOn i c = rOn i' c' → romOn i c = romOn i' c' := by decide +kernel

theorem romVow_table : ∀ v ∈ vowels, ∀ e ∈ allEnd, romVow v ∈ vowels ∧ rRun (romVow v) e = rRun v e := by decide +kernel

theorem romVow_pairs : ∀ v ∈ vowels, ∀ g ∈ [EndConsClass.NONE, .KOEY, .KOEW], ∀ v' ∈ vowels,
    ∀ g' ∈ [EndConsClass.NONE, .KOEY, .KOEW], rRun v g = rRun v' g' → romVow v = romVow v' ∧ g = g' := by decide +kernel

theorem rRun_glide (v : Vowel) (e : EndConsClass) : rRun v e = rRun v (glide e) := by cases e <;> rfl

theorem romFin_pairs : ∀ e ∈ allEnd, ∀ e' ∈ allEnd, glide e = glide e' → rFin e = rFin e' → e = e' := by decide +kernel

theorem asRomanized_valid (s : Syl) (h : ValidSyl s) : ValidSyl (asRomanized s) := by
  have ho := romOn_table _ (mem_allInit h.iCons1) _ h.iCons2
  have hv := (romVow_table _ h.vowel .NONE (by decide)).1
  have ni : ∀ i ∈ allInit, i ≠ InitConsSound.INVALID := by decide
  exact ⟨h.literal, ni _ ho.1, ho.2.1, hv, by simp [asRomanized]⟩

theorem roman_asRomanized (s : Syl) (h : ValidSyl s) : romanSyl (asRomanized s) = romanSyl s := by
  have ho := (romOn_table _ (mem_allInit h.iCons1) _ h.iCons2).2.2
  have hv := (romVow_table _ h.vowel s.eCons (mem_allEnd _)).2
  rw [roman_parts s h, roman_parts _ (asRomanized_valid s h)]
  change Res.ok (rOn (romOn s.iCons1 s.iCons2).1 (romOn s.iCons1 s.iCons2).2 ++ rRun (romVow s.vowel) s.eCons ++ _) = _
  rw [ho, hv]
  rfl

theorem roman_alike (s s' : Syl) (h : ValidSyl s) (h' : ValidSyl s') (he : romanSyl s = romanSyl s') :
    ceq (asRomanized s) (asRomanized s') = true := by
  rw [roman_parts s h, roman_parts s' h', Res.ok.injEq, List.append_assoc, List.append_assoc] at he
  have hv : ∀ s, ValidSyl s → ∀ x ∈ (rRun s.vowel s.eCons ++ rFin s.eCons).head?, isC x = false := by
    intro s h x hx
    have hr := rRun_vow _ h.vowel _ (mem_allEnd s.eCons)
    cases hr' : rRun s.vowel s.eCons with
    | nil => exact absurd hr' hr.2
    | cons y ys =>
      rw [hr'] at hx hr
      have := head_all hr.1 x (by simpa using hx)
      simp [isC, this]
  have hf : ∀ s : Syl, ∀ x ∈ (rFin s.eCons).head?, isV x = false := fun s x hx =>
    isC_not (head_all (rFin_cons _ (mem_allEnd s.eCons)) x hx)
  have mi := mem_allInit h.iCons1
  have mi' := mem_allInit h'.iCons1
  obtain ⟨e1, e2⟩ := span_inj (rOn_cons _ mi _ h.iCons2).1 (hv s h) (rOn_cons _ mi' _ h'.iCons2).1 (hv s' h') he
  obtain ⟨e3, e4⟩ := span_inj (rRun_vow _ h.vowel _ (mem_allEnd s.eCons)).1 (hf s)
    (rRun_vow _ h'.vowel _ (mem_allEnd s'.eCons)).1 (hf s') e2
  have e5 := romOn_pairs _ mi _ h.iCons2 _ mi' _ h'.iCons2 e1
  have g : ∀ e, glide e ∈ [EndConsClass.NONE, .KOEY, .KOEW] := by intro e; cases e <;> decide
  rw [rRun_glide s.vowel, rRun_glide s'.vowel] at e3
  obtain ⟨e6, e7⟩ := romVow_pairs _ h.vowel _ (g _) _ h'.vowel _ (g _) e3
  have e8 := romFin_pairs _ (mem_allEnd _) _ (mem_allEnd _) e7 e4
  refine (Syl.eq_iff _ _).mpr ⟨by rw [show (asRomanized s).literal = s.literal from rfl, h.literal]; exact h'.literal.symm,
    fun _ => ⟨congrArg Prod.fst e5, show (romOn s.iCons1 s.iCons2).2 = (romOn s'.iCons1 s'.iCons2).2 by rw [e5], e6, e8, rfl⟩⟩

/-! ## Respellable syllables -/

theorem respellable_onset : ∀ hi, ∀ x ∈ trueClusters, (wayOf .HA hi).headD 0 ∉ x.1 := by decide +kernel

theorem respellable_key : ∀ mid, ∀ v ∈ vowels, ∀ e ∈ allEnd, ∀ t ∈ allTones, ¬ (dd v e = true ∧ t = .SAMAN) →
    HasSpelling v e (decide ((pick mid (dd v e) (sh v e) t).2 ≠ [])) → keyOf mid v e t = (v, t) := by decide +kernel

theorem asWritten_respellable (s : Syl) (h : ValidSyl s) (hr : Respellable s) : asWritten s = s := by
  obtain ⟨h1, h2, h3⟩ := hr
  obtain ⟨k1, k2, _⟩ := chosenWay_pick s.iCons1 (mem_allInit h.iCons1) s.tone (mem_allTones h.tone)
    (dd s.vowel s.eCons) (sh s.vowel s.eCons)
  rw [show spelledDead s = dd s.vowel s.eCons from rfl, show spelledShort s = sh s.vowel s.eCons from rfl] at *
  rw [k2] at h2
  have hk := respellable_key (midInitial s.iCons1) _ h.vowel _ (mem_allEnd s.eCons) _ (mem_allTones h.tone) h1 h2
  rw [keyOf_eq s, Prod.mk.injEq] at hk
  have ho : onsetAsWritten s = (s.iCons1, s.iCons2) := by
    rw [onsetAsWritten_key s h, onsetKey, if_neg]
    rintro ⟨hi, hc, _⟩
    rcases h3 with h3 | ⟨⟨x, hx, _, hx2⟩, _⟩
    · exact hc h3
    · rw [k1, hi] at hx2
      exact respellable_onset _ x hx hx2
  unfold asWritten
  rw [hk.1, hk.2, ho]

end Thpronun
