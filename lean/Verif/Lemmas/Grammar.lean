import Verif.Model.Parser
import Verif.Spec.Syl
import Verif.Spec.Tone
import Verif.Props.Tone

/-! # The syllable grammar: every emitted syllable is valid, goes forward and stays inside the token -/

namespace Thpronun
open Res Spec

theorem strAt_sat {w : U16Str} {i : Nat} (h : i < w.length) :
    (strAt w i).Sat fun c => w[i]? = some c := by
  unfold strAt
  rw [List.getElem?_eq_getElem h]
  simp

theorem strAt_eq {w : U16Str} {i : Nat} {c : Nat} (h : w[i]? = some c) : strAt w i = .ok c := by
  unfold strAt; rw [h]

theorem strAt_throw {w : U16Str} {i : Nat} (h : w.length ≤ i) : strAt w i = .throw .outOfRange := by
  unfold strAt; rw [List.getElem?_eq_none h]

/-- Components of the initial part of a syllable. -/
def Init (snd : InitConsSound) (c2 : Int) (pre : Option Syl) : Prop :=
  snd ≠ .INVALID ∧ c2 ∈ Spec.clusters ∧ ∀ s ∈ pre, ValidSyl s

/-- A consonant before a vowel that can follow a cluster, or before a second consonant and such a vowel or a third
consonant: the letters on which a syllable can end and the next one begin (parser.cxx:961-1000). -/
def Linkable (ct : CType) (w : U16Str) (i : Nat) : Prop :=
  ∃ c d, w[i]? = some c ∧ ct.isCons c = true ∧ w[i + 1]? = some d ∧
    (d ∈ afterClusterVowels ∨ ct.isCons d = true ∧
      ∃ n, w[i + 2]? = some n ∧ (n ∈ afterClusterVowels ∨ ct.isCons n = true))

/-- An emitted syllable is valid, begins at `b`, ends at most at `S`. -/
structure EOK (ct : CType) (w : U16Str) (b stop S : Nat) (e : Emit) : Prop where
  lo : b < e.pos
  hi : e.pos ≤ S
  span : e.pos ≤ b + 40
  init : Init e.p.iConsSound e.p.iCons2 e.p.pre
  vowel : e.p.vowel ∈ vowels
  tone : e.p.tone ≠ .INVALID
  link : e.linked = true → e.pos < stop ∧ Linkable ct w e.pos

def AllE (ct : CType) (w : U16Str) (b stop S : Nat) (es : List Emit) : Prop :=
  ∀ e ∈ es, EOK ct w b stop S e

section
variable {ct : CType} {w : U16Str} {b stop S : Nat}

theorem AllE.nil : AllE ct w b stop S [] := fun _ h => absurd h (by simp)
theorem AllE.append {x y : List Emit} (h : AllE ct w b stop S x) (h' : AllE ct w b stop S y) :
    AllE ct w b stop S (x ++ y) := fun e he => by
  rcases List.mem_append.mp he with he | he
  · exact h e he
  · exact h' e he
theorem AllE.one {e : Emit} (h : EOK ct w b stop S e) : AllE ct w b stop S [e] := fun x hx => by
  rw [List.mem_singleton] at hx; exact hx ▸ h

theorem isCharAt_sat (hs : stop ≤ w.length) (i c : Nat) :
    (isCharAt w stop i c).Sat fun r => (r = true ↔ i < stop ∧ w[i]? = some c) := by
  unfold isCharAt
  split
  · refine Sat.bind (strAt_sat (by omega)) fun x hx => ?_
    simp only [pure_eq, sat_ok, decide_eq_true_eq, hx, Option.some.injEq]
    exact ⟨fun h => ⟨‹_›, h.symm⟩, fun h => h.2.symm⟩
  · simp; omega

theorem endOrSylStart_sat (hs : stop ≤ w.length) (i : Nat) :
    (endOrSylStart ct w stop i).Sat fun r =>
      (r = true ↔ stop ≤ i ∨ ∃ c, w[i]? = some c ∧ isSylStart ct c = true) := by
  unfold endOrSylStart
  split
  · simp_all
  · refine Sat.bind (strAt_sat (by omega)) fun x hx => ?_
    simp only [pure_eq, sat_ok, hx, Option.some.injEq, exists_eq_left']
    exact ⟨.inr, fun h => h.resolve_left (by omega)⟩

variable (hct : ct.Ok)
include hct

theorem cons_isConsonant {c : Nat} (h : ct.isCons c = true) : IsConsonant c := by
  have := hct.cons c h
  unfold IsConsonant; omega

theorem initConsSound_sat {c : Nat} (h : ct.isCons c = true) :
    (initConsSound c).Sat fun s => s ≠ .INVALID := by
  obtain ⟨s, h1, h2, _⟩ := C02_sound c (cons_isConsonant hct h)
  rw [h1]; exact h2

theorem initConsClass_sat {c : Nat} (h : ct.isCons c = true) :
    (initConsClass c).Sat fun s => s ≠ .INVALID := by
  obtain ⟨s, h1, h2, _⟩ := C02_class c (cons_isConsonant hct h)
  rw [h1]; exact h2

theorem endConsClass_sat {c : Nat} (h : ct.isCons c = true) :
    (endConsClass c).Sat fun _ => True := by
  obtain ⟨s, h1, _⟩ := C02_final c (cons_isConsonant hct h)
  rw [h1]; trivial

theorem endConsOf_sat (c : Nat) (excl : List Nat) :
    (endConsOf ct c excl).Sat fun r => r.isSome = true → ct.isCons c = true := by
  unfold endConsOf
  split
  · refine Sat.bind (endConsClass_sat hct ‹_›) fun e _ => ?_
    split <;> simp_all
  · simp

omit hct in
theorem karanSimple_sat (hs : stop ≤ w.length) (i : Nat) :
    (matchKaranSimple ct w i stop).Sat fun k => k = i ∨ (k = i + 2 ∧ i + 2 ≤ stop) := by
  unfold matchKaranSimple
  split
  · refine Sat.bind (strAt_sat (by omega)) fun x _ => ?_
    split
    · refine Sat.bind (strAt_sat (by omega)) fun x _ => ?_
      split
      · exact .inr ⟨rfl, by omega⟩
      · exact .inl rfl
    · exact .inl rfl
  · exact .inl rfl

omit hct in
theorem karanIU_sat (hs : stop ≤ w.length) (i : Nat) :
    (matchKaranIU ct w i stop).Sat fun k => k = i ∨ (k = i + 3 ∧ i + 3 ≤ stop) := by
  unfold matchKaranIU
  split
  · refine Sat.bind (strAt_sat (by omega)) fun x _ => ?_
    split
    · refine Sat.bind (strAt_sat (by omega)) fun x _ => ?_
      split
      · refine Sat.bind (strAt_sat (by omega)) fun x _ => ?_
        split
        · exact .inr ⟨rfl, by omega⟩
        · exact .inl rfl
      · exact .inl rfl
    · exact .inl rfl
  · exact .inl rfl

omit hct in
theorem karanComplex_sat (hs : stop ≤ w.length) (i : Nat) :
    (matchKaranComplex ct w i stop).Sat fun k =>
      k = i ∨ (k = i + 2 ∧ i + 2 ≤ stop) ∨ (k = i + 3 ∧ i + 3 ≤ stop) := by
  unfold matchKaranComplex
  refine Sat.bind (karanSimple_sat hs i) fun k hk => ?_
  split
  · simp only [pure_eq, sat_ok]; omega
  · split
    · refine Sat.bind (strAt_sat (by omega)) fun x _ => ?_
      split
      · refine Sat.bind (strAt_sat (by omega)) fun x _ => ?_
        split
        · refine Sat.bind (strAt_sat (by omega)) fun x _ => ?_
          split
          · exact .inr (.inr ⟨rfl, by omega⟩)
          · exact .inl rfl
        · exact .inl rfl
      · exact .inl rfl
    · exact .inl rfl

theorem readTone_sat (p : PartialSyl) (c : Nat) (ht : p.tone ≠ .INVALID) :
    (readTone ct p c).Sat fun q => ∃ t k, t ≠ Tone.INVALID ∧ k ≤ 1 ∧
      (k = 1 ↔ ct.isTone c = true) ∧ q = { p with tone := t, pos := p.pos + k } := by
  unfold readTone
  split
  · have h := hct.tone c ‹_›
    have : (thCharToTone c).Sat fun t => t ≠ .INVALID := by
      have key : ∀ i < 4, (thCharToTone (0x0e48 + i)).Sat fun t => t ≠ .INVALID := by decide +kernel
      exact forall_range (P := fun c => (thCharToTone c).Sat fun t => t ≠ .INVALID) 0x0e48 4 key c h.1
        (by omega)
    refine Sat.bind this fun t h' => ?_
    exact ⟨t, 1, h', Nat.le_refl _, by simp_all, rfl⟩
  · exact ⟨p.tone, 0, ht, Nat.zero_le _, by simp_all, rfl⟩

omit hct in
theorem karanEmit_sat (hs : stop ≤ w.length) (p : PartialSyl) (hb : b < p.pos) (hS : p.pos ≤ S)
    (hS' : stop ≤ S) (hsp : p.pos ≤ b + 30) (hi : Init p.iConsSound p.iCons2 p.pre)
    (hv : p.vowel ∈ vowels) (ht : p.tone ≠ .INVALID) :
    (karanEmit ct w stop p).Sat fun r => ∃ k es, k ≤ 2 ∧ p.pos + k ≤ S ∧
      r = ({ p with pos := p.pos + k }, es) ∧ AllE ct w b stop S es := by
  unfold karanEmit
  refine Sat.bind (karanSimple_sat hs _) fun k hk => ?_
  refine ⟨k - p.pos, [⟨k, false, { p with pos := k }⟩], by omega, by omega, ?_,
    AllE.one ⟨?_, ?_, ?_, hi, hv, ht, by simp⟩⟩
  · simp only [show p.pos + (k - p.pos) = k by omega]
  · dsimp only; omega
  · dsimp only; omega
  · dsimp only; omega

theorem eatEndConsSimple_sat (hs : stop ≤ w.length) (p : PartialSyl) (excl : List Nat)
    (hp : p.pos < stop) (hb : b ≤ p.pos) (hS' : stop ≤ S) (hsp : p.pos ≤ b + 32)
    (hi : Init p.iConsSound p.iCons2 p.pre) (hv : p.vowel ∈ vowels) (ht : p.tone ≠ .INVALID) :
    (eatEndConsSimple ct w stop p excl).Sat (AllE ct w b stop S) := by
  unfold eatEndConsSimple
  refine Sat.bind (strAt_sat (by omega)) fun c hc => ?_
  refine Sat.bind (endConsOf_sat hct c excl) fun r hr => ?_
  cases r with
  | none => exact AllE.nil
  | some e =>
    refine Sat.bind (karanComplex_sat hs _) fun k hk => ?_
    refine AllE.one ⟨?_, ?_, ?_, hi, hv, ht, by simp⟩ <;> dsimp only <;> omega

omit hct in
theorem linkPart_sat (hs : stop ≤ w.length) (p : PartialSyl) (c : Nat)
    (hp : p.pos < stop) (hb : b < p.pos) (hS' : stop ≤ S) (hsp : p.pos ≤ b + 32)
    (hi : Init p.iConsSound p.iCons2 p.pre) (hv : p.vowel ∈ vowels) (ht : p.tone ≠ .INVALID)
    (hc : w[p.pos]? = some c) (hcc : ct.isCons c = true) :
    (linkPart ct w stop p c).Sat (AllE ct w b stop S) := by
  have hlink : ∀ q : Prop, ∀ [Decidable q], (q → Linkable ct w p.pos) →
      AllE ct w b stop S (if q then [⟨p.pos, true, p⟩] else []) := by
    intro q _ hq
    split
    · rename_i hq'
      exact AllE.one ⟨hb, by dsimp only; omega, by dsimp only; omega, hi, hv, ht, fun _ => ⟨hp, hq hq'⟩⟩
    · exact AllE.nil
  have hend : p.pos + 1 < stop → AllE ct w b stop S [⟨p.pos + 2, false, p⟩] := fun h =>
    AllE.one ⟨by dsimp only; omega, by dsimp only; omega, by dsimp only; omega, hi, hv, ht, by simp⟩
  unfold linkPart
  split
  · rename_i hlt
    refine Sat.bind (strAt_sat (by omega)) fun sec hsec => ?_
    dsimp only
    split
    · rename_i hsc
      have fin : ∀ a, AllE ct w b stop S a →
          Sat (if p.pos + 2 = stop then pure a else do
            let next ← strAt w (p.pos + 2)
            pure (a ++ if next ∈ afterClusterVowels ∨ ct.isCons next = true then [⟨p.pos, true, p⟩] else []))
          (AllE ct w b stop S) := by
        intro a ha
        split
        · exact ha
        · exact Sat.bind (strAt_sat (by omega)) fun n hn => ha.append (hlink _ fun h => ⟨c, sec, hc, hcc, hsec, .inr ⟨hsc, n, hn, h⟩⟩)
      split
      · refine Sat.bind (endOrSylStart_sat hs _) fun r _ => ?_
        split
        · exact fin _ (hend hlt)
        · exact fin _ AllE.nil
      · exact fin _ AllE.nil
    · rename_i hsc
      have hl : sec ∈ afterClusterVowels ∨ ct.isCons sec = true → Linkable ct w p.pos := fun h =>
        ⟨c, sec, hc, hcc, hsec, .inl (h.resolve_right hsc)⟩
      split
      · have fin : ∀ r : Bool, Sat (if r = true then
            if p.pos + 2 = stop then pure [(⟨p.pos + 2, false, p⟩ : Emit)] else
              pure ([(⟨p.pos + 2, false, p⟩ : Emit)] ++
                if sec ∈ afterClusterVowels ∨ ct.isCons sec = true then [⟨p.pos, true, p⟩] else [])
            else pure (if sec ∈ afterClusterVowels ∨ ct.isCons sec = true then [⟨p.pos, true, p⟩] else []))
          (AllE ct w b stop S) := by
          intro r
          split
          · split
            · exact hend hlt
            · exact (hend hlt).append (hlink _ hl)
          · exact hlink _ hl
        split
        · exact Sat.bind (endOrSylStart_sat hs _) fun r _ => fin r
        · exact fin false
      · exact hlink _ hl
  · exact AllE.nil

theorem eatEndConsComplex_sat (hs : stop ≤ w.length) (p : PartialSyl) (excl : List Nat)
    (hp : p.pos < stop) (hb : b < p.pos) (hS' : stop ≤ S) (hsp : p.pos ≤ b + 32)
    (hi : Init p.iConsSound p.iCons2 p.pre) (hv : p.vowel ∈ vowels) (ht : p.tone ≠ .INVALID) :
    (eatEndConsComplex ct w stop p excl).Sat (AllE ct w b stop S) := by
  unfold eatEndConsComplex
  refine Sat.bind (strAt_sat (by omega)) fun c hc => ?_
  refine Sat.bind (endConsOf_sat hct c excl) fun r hr => ?_
  cases r with
  | none => exact AllE.nil
  | some e =>
    dsimp only
    refine Sat.bind (karanComplex_sat hs _) fun k hk => ?_
    have h1 : AllE ct w b stop S [⟨k, false, { p with eConsClass := e }⟩] := by
      refine AllE.one ⟨?_, ?_, ?_, hi, hv, ht, by simp⟩ <;> dsimp only <;> omega
    split
    · exact h1
    · refine Sat.bind (linkPart_sat hs { p with eConsClass := e } c hp hb hS' hsp hi hv ht hc (hr rfl))
        fun b hb => h1.append hb


/-! ## Tactic: symbolic execution of one emitting function -/

omit hct in
theorem sat_pure {α} {a : α} {P : α → Prop} (h : P a) : Sat (pure a : Res α) P := h

omit hct in
theorem sat_bind_isCharAt {β} {i c : Nat} {f : Bool → Res β} {Q : β → Prop} (hs : stop ≤ w.length)
    (h1 : i < stop → w[i]? = some c → (f true).Sat Q) (h0 : (f false).Sat Q) :
    (isCharAt w stop i c >>= f).Sat Q := by
  refine Sat.bind (isCharAt_sat hs i c) fun r hr => ?_
  cases r
  · exact h0
  · exact h1 (hr.mp rfl).1 (hr.mp rfl).2

/-- Side conditions. -/
macro "gside" : tactic => `(tactic| first
  | assumption
  | omega
  | (dsimp only; first | assumption | omega | with_unfolding_all decide)
  | with_unfolding_all decide)

set_option hygiene false in
macro "gstep" : tactic => `(tactic| first
  | with_reducible exact AllE.nil
  | assumption
  | with_reducible refine AllE.append ?_ ?_
  | (with_reducible refine AllE.one ⟨by gside, by gside, by gside, by gside, by gside, by gside, by simp⟩)
  | (with_reducible refine Sat.bind (strAt_sat (by gside)) (fun c hc => ?_))
  | (with_reducible refine sat_bind_isCharAt ‹_› (fun _ _ => ?_) ?_ <;>
       try simp only [Bool.false_eq_true, if_false, if_true])
  | (with_reducible refine Sat.bind (endOrSylStart_sat ‹_› _) (fun r hr => ?_))
  | (with_reducible refine Sat.bind (karanSimple_sat ‹_› _) (fun k hk => ?_))
  | (with_reducible refine Sat.bind (karanIU_sat ‹_› _) (fun k hk => ?_))
  | (with_reducible refine Sat.bind (readTone_sat ‹_› _ _ (by gside)) ?_
     rintro _ ⟨t, k, _, _, _, rfl⟩; dsimp only)
  | (with_reducible refine Sat.bind (karanEmit_sat (S := S) (b := b) ‹_› _ (by gside) (by gside) (by gside) (by gside)
                        (by gside) (by gside) (by gside)) ?_
     rintro _ ⟨k, es, _, _, rfl, _⟩; dsimp only)
  | (with_reducible refine eatEndConsSimple_sat ‹_› ‹_› _ _ (by gside) (by gside) (by gside) (by gside)
                        (by gside) (by gside) (by gside))
  | (with_reducible refine eatEndConsComplex_sat ‹_› ‹_› _ _ (by gside) (by gside) (by gside) (by gside)
                        (by gside) (by gside) (by gside))
  | (with_reducible refine Sat.bind (eatEndConsSimple_sat (S := S) (b := b) ‹_› ‹_› _ _ (by gside) (by gside) (by gside)
                        (by gside) (by gside) (by gside) (by gside)) (fun es hes => ?_))
  | (with_reducible refine Sat.bind (eatEndConsComplex_sat (S := S) (b := b) ‹_› ‹_› _ _ (by gside) (by gside) (by gside)
                        (by gside) (by gside) (by gside) (by gside)) (fun es hes => ?_))
  | split
  | (rw [pure_eq, ok_bind]; try dsimp only)
  | with_reducible refine sat_pure ?_
  | (rw [sat_ok]))

theorem hanAkat_sat (hs : stop ≤ w.length) (p : PartialSyl)
    (hb : b < p.pos) (hS : p.pos ≤ S) (hS' : stop ≤ S) (hsp : p.pos ≤ b + 20)
    (hi : Init p.iConsSound p.iCons2 p.pre) (ht : p.tone ≠ .INVALID) :
    (hanAkat ct w stop p).Sat (AllE ct w b stop S) := by
  unfold hanAkat
  dsimp only
  repeat' gstep


theorem upBlEnd_sat (hs : stop ≤ w.length) (p : PartialSyl)
    (hb : b < p.pos) (hS : p.pos ≤ S) (hS' : stop ≤ S) (hsp : p.pos ≤ b + 24)
    (hi : Init p.iConsSound p.iCons2 p.pre) (ht : p.tone ≠ .INVALID) (hv : p.vowel ∈ vowels) :
    (upBlEnd ct w stop p).Sat (AllE ct w b stop S) := by
  unfold upBlEnd
  dsimp only
  repeat' gstep

omit hct in
theorem upBlOpen_sat (hs : stop ≤ w.length) (p : PartialSyl) :
    (upBlOpen ct w stop p).Sat fun _ => True := by
  unfold upBlOpen
  split
  · trivial
  · refine Sat.bind (strAt_sat (by omega)) fun c _ => ?_
    split <;> trivial

theorem upBlVowel_sat (hs : stop ≤ w.length) (p : PartialSyl) (c : Nat)
    (hb : b < p.pos) (hS : p.pos ≤ S) (hS' : stop ≤ S) (hsp : p.pos ≤ b + 20)
    (hi : Init p.iConsSound p.iCons2 p.pre) (ht : p.tone ≠ .INVALID) (hp : p.pos < stop)
    (hc : ct.isUpVowel c = true ∨ ct.isBlVowel c = true) (hh : c ≠ UTH.MAI_HAN_AKAT) :
    (upBlVowel ct w stop p c).Sat (AllE ct w b stop S) := by
  have hc' : 0x0e34 ≤ c ∧ c ≤ 0x0e39 := by
    have : c ≠ 0x0e31 := hh
    rcases hc with h | h
    · have := hct.up c h; omega
    · have := hct.bl c h; omega
  have hv : (thCharToAboveBelowVowel c).Sat fun v => v ∈ vowels := by
    have key : ∀ i < 6, (thCharToAboveBelowVowel (0x0e34 + i)).Sat fun v => v ∈ vowels := by decide +kernel
    exact forall_range (P := fun c => (thCharToAboveBelowVowel c).Sat fun v => v ∈ vowels) 0x0e34 6 key c
      hc'.1 (by omega)
  unfold upBlVowel
  refine Sat.bind hv fun v hv => ?_
  dsimp only
  have fin : ∀ t k, t ≠ Tone.INVALID → k ≤ 1 → p.pos + 1 + k ≤ S →
      Sat (do
        if ← upBlOpen ct w stop { p with vowel := v, pos := p.pos + 1 + k, tone := t } then
          let p := { p with vowel := v, pos := p.pos + 1 + k, tone := t, eConsClass := .NONE }
          let k ← matchKaranSimple ct w p.pos stop
          if k = p.pos then
            let k2 ← matchKaranIU ct w p.pos stop
            if k2 ≠ p.pos then pure [⟨k2, false, p⟩]
            else do
              let es ← upBlEnd ct w stop p
              pure ([⟨p.pos, false, p⟩] ++ es)
          else
            let p := { p with pos := k }
            let es ← upBlEnd ct w stop p
            pure ([⟨k, false, p⟩] ++ es)
        else upBlEnd ct w stop { p with vowel := v, pos := p.pos + 1 + k, tone := t })
      (AllE ct w b stop S) := by
    intro t k ht' hk hkS
    refine Sat.bind (upBlOpen_sat hs _) fun r _ => ?_
    have hend : ∀ q : PartialSyl, b < q.pos → q.pos ≤ S → q.pos ≤ b + 24 →
        Init q.iConsSound q.iCons2 q.pre → q.tone ≠ .INVALID → q.vowel ∈ vowels →
        (upBlEnd ct w stop q).Sat (AllE ct w b stop S) := fun q h1 h2 h3 h4 h5 h6 =>
      upBlEnd_sat hct hs q h1 h2 hS' h3 h4 h5 h6
    dsimp only
    split
    · refine Sat.bind (karanSimple_sat ‹_› _) (fun k hk => ?_)
      split
      · refine Sat.bind (karanIU_sat ‹_› _) (fun k hk => ?_)
        split
        · repeat' gstep
        · refine Sat.bind (hend _ (by gside) (by gside) (by gside) (by gside) (by gside) (by gside))
            fun es hes => ?_
          repeat' gstep
      · refine Sat.bind (hend _ (by gside) (by gside) (by gside) (by gside) (by gside) (by gside))
          fun es hes => ?_
        repeat' gstep
    · exact hend _ (by gside) (by gside) (by gside) (by gside) (by gside) (by gside)
  split
  · refine Sat.bind (strAt_sat (by omega)) fun c hc => ?_
    refine Sat.bind (readTone_sat hct _ _ ht) ?_
    rintro _ ⟨t, k, h1, h2, h3, rfl⟩
    exact fin t k h1 h2 (by omega)
  · exact fin p.tone 0 ht (by omega) (by omega)

theorem maitaikhuO_sat (hs : stop ≤ w.length) (p : PartialSyl)
    (hb : b < p.pos) (hS : p.pos ≤ S) (hS' : stop ≤ S) (hsp : p.pos ≤ b + 20)
    (hi : Init p.iConsSound p.iCons2 p.pre) (ht : p.tone ≠ .INVALID) :
    (maitaikhuO ct w stop p).Sat (AllE ct w b stop S) := by
  unfold maitaikhuO
  dsimp only
  repeat' gstep

theorem roRua_sat (hs : stop ≤ w.length) (p : PartialSyl)
    (hb : b < p.pos) (hS : p.pos ≤ S) (hS' : stop ≤ S) (hsp : p.pos ≤ b + 20)
    (hi : Init p.iConsSound p.iCons2 p.pre) (ht : p.tone ≠ .INVALID) :
    (roRua ct w stop p).Sat (AllE ct w b stop S) := by
  unfold roRua
  dsimp only
  repeat' gstep

theorem consCons_sat (hs : stop ≤ w.length) (linked : Bool) (p : PartialSyl) (c : Nat)
    (hb : b < p.pos) (hS : p.pos ≤ S) (hS' : stop ≤ S) (hsp : p.pos ≤ b + 20)
    (hi : Init p.iConsSound p.iCons2 p.pre) (ht : p.tone ≠ .INVALID) (hp : p.pos < stop) (hv : p.vowel = VW.INVALID ∨ p.vowel ∈ vowels) :
    (consCons ct w stop linked p c).Sat (AllE ct w b stop S) := by
  unfold consCons
  dsimp only
  split
  · split
    · refine Sat.bind (endConsClass_sat hct ‹_›) fun e _ => ?_
      repeat' gstep
    · have hv' := hv.resolve_left (fun h => ‹¬ VW.INVALID = p.vowel› h.symm)
      repeat' gstep
  · exact AllE.nil

theorem plainCons_sat (hs : stop ≤ w.length) (linked : Bool) (p : PartialSyl) (c : Nat)
    (hb : b < p.pos) (hS : p.pos ≤ S) (hS' : stop ≤ S) (hsp : p.pos ≤ b + 18)
    (hi : Init p.iConsSound p.iCons2 p.pre) (ht : p.tone ≠ .INVALID) (hp : p.pos < stop) (hv : p.vowel = VW.INVALID ∨ p.vowel ∈ vowels) :
    (plainCons ct w stop linked p c).Sat (AllE ct w b stop S) := by
  unfold plainCons
  refine Sat.bind (readTone_sat hct _ _ ht) ?_
  rintro _ ⟨t, k, h1, h2, h3, rfl⟩
  dsimp only
  split
  · exact AllE.nil
  refine Sat.bind (strAt_sat (by omega)) fun c hc => ?_
  have hro := roRua_sat (b := b) (S := S) hct hs { p with tone := t, pos := p.pos + k + 1 } (by gside) (by gside) (by gside)
    (by gside) (by gside) (by gside)
  have hcc := consCons_sat (b := b) (S := S) hct hs linked { p with tone := t, pos := p.pos + k } c (by gside) (by gside)
    (by gside) (by gside) (by gside) (by gside) (by gside) (by gside)
  repeat' gstep

/-- What `MatchInitCons` returns. -/
structure POK (b S : Nat) (p : PartialSyl) : Prop where
  lo : b < p.pos
  hi : p.pos ≤ S
  span : p.pos ≤ b + 10
  init : Init p.iConsSound p.iCons2 p.pre
  vowel : p.vowel = VW.INVALID ∨ p.vowel ∈ vowels
  done : p.isComplete = true → p.vowel ∈ vowels ∧ p.tone ≠ .INVALID

theorem thConsOne_sat (hs : stop ≤ w.length) (linked : Bool) (p : PartialSyl) (hS' : stop ≤ S) (h : POK b S p) :
    (thConsOne ct w stop linked p).Sat (AllE ct w b stop S) := by
  obtain ⟨hb, hS, hsp, hi, hv, hd⟩ := h
  unfold thConsOne
  split
  · exact AllE.nil
  split
  · obtain ⟨hv', ht⟩ := hd ‹_›
    exact AllE.one ⟨hb, hS, by gside, hi, hv', ht, by simp⟩
  refine Sat.bind (strAt_sat (by omega)) fun c hc => ?_
  dsimp only
  split
  · exact hanAkat_sat hct hs _ (by gside) (by gside) (by gside) (by gside) (by gside) (by gside)
  split
  · refine upBlVowel_sat hct hs _ _ (by gside) (by gside) (by gside) (by gside) (by gside) (by gside) (by gside) ?_ ?_
    · simp_all
    · intro h; simp_all
  split
  · exact maitaikhuO_sat hct hs _ (by gside) (by gside) (by gside) (by gside) (by gside) (by gside)
  · exact plainCons_sat hct hs _ _ _ (by gside) (by gside) (by gside) (by gside) (by gside) (by gside) (by gside) hv


theorem saraEI_sat (hs : stop ≤ w.length) (p : PartialSyl)
    (hb : b < p.pos) (hS : p.pos ≤ S) (hS' : stop ≤ S) (hsp : p.pos ≤ b + 20)
    (hi : Init p.iConsSound p.iCons2 p.pre) (ht : p.tone ≠ .INVALID) :
    (saraEI ct w stop p).Sat (AllE ct w b stop S) := by
  unfold saraEI
  dsimp only
  repeat' gstep

theorem saraEMid_sat (hs : stop ≤ w.length) (mid : Nat) (vs vl : Int) (cx : Bool) (p : PartialSyl)
    (hb : b < p.pos) (hS : p.pos ≤ S) (hS' : stop ≤ S) (hsp : p.pos ≤ b + 20)
    (hi : Init p.iConsSound p.iCons2 p.pre) (ht : p.tone ≠ .INVALID) (h1 : vs ∈ vowels) (h2 : vl ∈ vowels) :
    (saraEMid ct w stop mid vs vl cx p).Sat (AllE ct w b stop S) := by
  unfold saraEMid
  dsimp only
  repeat' gstep

theorem saraEPlain_sat (hs : stop ≤ w.length) (p : PartialSyl)
    (hb : b < p.pos) (hS : p.pos ≤ S) (hS' : stop ≤ S) (hsp : p.pos ≤ b + 24)
    (hi : Init p.iConsSound p.iCons2 p.pre) (ht : p.tone ≠ .INVALID) :
    (saraEPlain ct w stop p).Sat (AllE ct w b stop S) := by
  unfold saraEPlain
  dsimp only
  repeat' gstep

theorem saraERest_sat (hs : stop ≤ w.length) (p : PartialSyl) (c : Nat)
    (hb : b < p.pos) (hS : p.pos ≤ S) (hS' : stop ≤ S) (hsp : p.pos ≤ b + 20)
    (hi : Init p.iConsSound p.iCons2 p.pre) (ht : p.tone ≠ .INVALID) (hp : p.pos < stop) :
    (saraERest ct w stop p c).Sat (AllE ct w b stop S) := by
  have hpl := saraEPlain_sat (b := b) (S := S) hct hs p hb hS hS' (by gside) hi ht
  unfold saraERest
  dsimp only
  repeat' gstep

theorem saraEOne_sat (hs : stop ≤ w.length) (p : PartialSyl) (hS' : stop ≤ S) (h : POK b S p) :
    (saraEOne ct w stop p).Sat (AllE ct w b stop S) := by
  obtain ⟨hb, hS, hsp, hi, hv, hd⟩ := h
  unfold saraEOne
  dsimp only
  split
  · exact AllE.nil
  split
  · repeat' gstep
  refine Sat.bind (strAt_sat (by omega)) fun c hc => ?_
  split
  · exact saraEI_sat hct hs _ (by gside) (by gside) (by gside) (by gside) (by gside) (by gside)
  split
  · exact saraEMid_sat hct hs _ _ _ _ _ (by gside) (by gside) (by gside) (by gside) (by gside) (by gside)
      (by gside) (by gside)
  split
  · exact saraEMid_sat hct hs _ _ _ _ _ (by gside) (by gside) (by gside) (by gside) (by gside) (by gside)
      (by gside) (by gside)
  split
  · repeat' gstep
  refine Sat.bind (readTone_sat hct _ _ (by gside)) ?_
  rintro _ ⟨t, k, h1, h2, h3, rfl⟩
  dsimp only
  split
  · repeat' gstep
  · rename_i hn
    have : p.pos + k < stop := by
      rcases Nat.eq_zero_or_pos k with h | h
      · omega
      · have := h3.mp (by omega)
        simp only [this, true_and] at hn
        omega
    refine Sat.bind (strAt_sat (by omega)) fun c hc => ?_
    exact saraERest_sat hct hs _ _ (by gside) (by gside) (by gside) (by gside) (by gside) (by gside) (by gside)

theorem saraAe_sat (hs : stop ≤ w.length) (p : PartialSyl)
    (hb : b < p.pos) (hS : p.pos ≤ S) (hS' : stop ≤ S) (hsp : p.pos ≤ b + 20)
    (hi : Init p.iConsSound p.iCons2 p.pre) (ht : p.tone ≠ .INVALID) :
    (saraAe ct w stop p).Sat (AllE ct w b stop S) := by
  unfold saraAe
  dsimp only
  repeat' gstep

theorem saraO_sat (hs : stop ≤ w.length) (p : PartialSyl)
    (hb : b < p.pos) (hS : p.pos ≤ S) (hS' : stop ≤ S) (hsp : p.pos ≤ b + 20)
    (hi : Init p.iConsSound p.iCons2 p.pre) (ht : p.tone ≠ .INVALID) :
    (saraO ct w stop p).Sat (AllE ct w b stop S) := by
  unfold saraO
  dsimp only
  repeat' gstep

theorem saraAiMalai_sat (hs : stop ≤ w.length) (p : PartialSyl)
    (hb : b < p.pos) (hS : p.pos ≤ S) (hS' : stop ≤ S) (hsp : p.pos ≤ b + 20)
    (hi : Init p.iConsSound p.iCons2 p.pre) (ht : p.tone ≠ .INVALID) :
    (saraAiMalai ct w stop p).Sat (AllE ct w b stop S) := by
  unfold saraAiMalai
  dsimp only
  repeat' gstep

theorem otherLVOne_sat (hs : stop ≤ w.length) (ldv : Nat) (p : PartialSyl) (hS' : stop ≤ S) (h : POK b S p) :
    (otherLVOne ct w stop ldv p).Sat (AllE ct w b stop S) := by
  obtain ⟨hb, hS, hsp, hi, hv, hd⟩ := h
  unfold otherLVOne
  dsimp only
  split
  · exact AllE.nil
  have fin : ∀ t k, t ≠ Tone.INVALID → k ≤ 1 → p.pos + k ≤ S →
      Sat (do
        let p := { p with pos := p.pos + k, tone := t }
        if ldv = UTH.SARA_AE then saraAe ct w stop p
        else if ldv = UTH.SARA_O then saraO ct w stop p
        else if ldv = UTH.SARA_AI_MAIMALAI then saraAiMalai ct w stop p
        else if ldv = UTH.SARA_AI_MAIMUAN then do
          let (_, a) ← karanEmit ct w stop { p with vowel := VW.A, eConsClass := .KOEY }
          pure a
        else pure [])
      (AllE ct w b stop S) := by
    intro t k ht hk hkS
    dsimp only
    split
    · exact saraAe_sat hct hs _ (by gside) (by gside) (by gside) (by gside) (by gside) (by gside)
    split
    · exact saraO_sat hct hs _ (by gside) (by gside) (by gside) (by gside) (by gside) (by gside)
    split
    · exact saraAiMalai_sat hct hs _ (by gside) (by gside) (by gside) (by gside) (by gside) (by gside)
    repeat' gstep
  split
  · refine Sat.bind (strAt_sat (by omega)) fun c hc => ?_
    refine Sat.bind (readTone_sat hct _ _ (by gside)) ?_
    rintro _ ⟨t, k, h1, h2, h3, rfl⟩
    exact fin t k h1 h2 (by gside)
  · exact fin .SAMAN 0 (by decide) (by omega) (by omega)

theorem parseRuLu_sat (hs : stop ≤ w.length) (pos : Nat) (hp : pos < stop) (hS' : stop ≤ S) (hb : b = pos) :
    (parseRuLu ct w pos stop).Sat (AllE ct w b stop S) := by
  have hi : ∀ q : Prop, ∀ [Decidable q], Init (if q then InitConsSound.LA else .RA) SC.NONE none := by
    intro q _
    split <;> exact ⟨by decide, by decide, by simp⟩
  unfold parseRuLu
  dsimp only
  refine Sat.bind (strAt_sat (by omega)) fun c hc => ?_
  have hi' := hi (UTH.LU = c)
  generalize (if UTH.LU = c then InitConsSound.LA else .RA) = snd at *
  split
  · repeat' gstep
  refine Sat.bind (strAt_sat (by omega)) fun c hc => ?_
  split
  · repeat' gstep
  split
  · refine Sat.bind (endConsClass_sat hct ‹_›) fun e _ => ?_
    repeat' gstep
  · exact AllE.nil


/-! ## Initial consonants -/

def AllP (b S : Nat) (ps : List PartialSyl) : Prop := ∀ p ∈ ps, POK b S p

omit hct in
theorem AllP.nil : AllP b S [] := fun _ h => absurd h (by simp)
omit hct in
theorem AllP.append {x y : List PartialSyl} (h : AllP b S x) (h' : AllP b S y) : AllP b S (x ++ y) :=
  fun e he => by
  rcases List.mem_append.mp he with he | he
  · exact h e he
  · exact h' e he
omit hct in
theorem AllP.cons {e : PartialSyl} {l : List PartialSyl} (h : POK b S e) (h' : AllP b S l) : AllP b S (e :: l) := fun x hx => by
  rw [List.mem_cons] at hx; rcases hx with rfl | hx
  · exact h
  · exact h' x hx

omit hct in
theorem notRoAt_sat (hs : stop ≤ w.length) (i : Nat) : (notRoAt w stop i).Sat fun r => r = true ↔
    stop ≤ i ∨ w[i]? ≠ some UTH.RO_RUA := by
  unfold notRoAt
  split
  · simp_all
  · refine Sat.bind (strAt_sat (by omega)) fun c hc => ?_
    simp [hc, eq_comm (a := UTH.RO_RUA)]; omega

omit hct in
theorem notRoRo_sat (hs : stop ≤ w.length) (i sec : Nat) : (notRoRo w stop i sec).Sat fun r => r = true ↔
    stop ≤ i ∨ sec ≠ UTH.RO_RUA ∨ w[i]? ≠ some UTH.RO_RUA := by
  unfold notRoRo
  split
  · simp_all
  · split
    · have : sec ≠ UTH.RO_RUA := fun h => ‹UTH.RO_RUA ≠ sec› h.symm
      simp [this]
    · refine Sat.bind (strAt_sat (by omega)) fun c hc => ?_
      simp [hc, eq_comm (a := UTH.RO_RUA)]
      have : sec = UTH.RO_RUA := by simp_all
      simp [this]; omega

omit hct in
theorem preSylOf_valid {snd : InitConsSound} {cls : InitConsClass} {v : Int} {d sh : Bool} (h : snd ≠ .INVALID)
    (hv : v ∈ vowels) : ∀ s ∈ some (preSylOf snd cls v d sh), ValidSyl s := by
  intro s hs
  rw [Option.mem_some_iff] at hs
  rw [← hs]
  exact ⟨rfl, h, show SC.NONE ∈ Spec.clusters by decide, hv, by cases cls <;> cases d <;> cases sh <;> simp [preSylOf, Syl.mk5, toneFromWritten]⟩

omit hct in
theorem sat_ite {α} {c : Prop} [Decidable c] {x y : Res α} {Q : α → Prop} (h : c → Sat x Q) (h' : ¬ c → Sat y Q) :
    Sat (if c then x else y) Q := by
  split
  · exact h ‹_›
  · exact h' ‹_›
omit hct in
theorem sat_pure_bind {α β} {a : α} {f : α → Res β} {Q : β → Prop} (h : Sat (f a) Q) : Sat (pure a >>= f) Q := h
omit hct in
theorem allP_ite {c : Prop} [Decidable c] {x y : List PartialSyl} (h : c → AllP b S x) (h' : ¬ c → AllP b S y) :
    AllP b S (if c then x else y) := by
  split
  · exact h ‹_›
  · exact h' ‹_›

omit hct in
theorem Init.intro {snd c2 pre} (h1 : snd ≠ .INVALID) (h2 : c2 ∈ Spec.clusters) (h3 : ∀ s ∈ pre, ValidSyl s) :
    Init snd c2 pre := ⟨h1, h2, h3⟩
omit hct in
theorem noPre : ∀ s ∈ (none : Option Syl), ValidSyl s := by simp

set_option hygiene false in
macro "pside" : tactic => `(tactic| (try dsimp only) <;> first
  | assumption
  | omega
  | exact Init.intro (by first | assumption | with_unfolding_all decide) (by with_unfolding_all decide) (by first | exact noPre | exact preSylOf_valid (by first | assumption | with_unfolding_all decide) (by with_unfolding_all decide))
  | exact fun _ => ⟨by with_unfolding_all decide, by with_unfolding_all decide⟩
  | exact .inl rfl
  | exact .inr (by with_unfolding_all decide)
  | (intro h; cases h))

set_option hygiene false in
macro "pstep" : tactic => `(tactic| first
  | with_reducible exact AllP.nil
  | assumption
  | with_reducible refine AllP.append ?_ ?_
  | (with_reducible refine AllP.cons ⟨by pside, by pside, by pside, by pside, by pside, by pside⟩ ?_)
  | (with_reducible refine Sat.bind (strAt_sat (by gside)) (fun c hc => ?_))
  | (with_reducible refine Sat.bind (notRoAt_sat ‹_› _) (fun r hr => ?_))
  | (with_reducible refine Sat.bind (notRoRo_sat ‹_› _ _) (fun r hr => ?_))
  | (with_reducible refine Sat.bind (initConsSound_sat ‹_› ‹_›) (fun snd hsnd => ?_))
  | (with_reducible refine Sat.bind (initConsClass_sat ‹_› ‹_›) (fun cls hcls => ?_))
  | (with_reducible refine Sat.bind (endConsClass_sat ‹_› ‹_›) (fun ec hec => ?_))
  | with_reducible refine sat_ite (fun _ => ?_) (fun _ => ?_)
  | with_reducible refine allP_ite (fun _ => ?_) (fun _ => ?_)
  | (with_reducible refine sat_pure_bind ?_; try dsimp only)
  | with_reducible refine sat_pure ?_
  | (rw [sat_ok]))

omit hct in
theorem clusterRo_sat (hs : stop ≤ w.length) (pos : Nat) (linked : Bool) (first : Nat) (snd : InitConsSound) (cls : InitConsClass)
    (hb : b ≤ pos) (hsp : pos ≤ b + 1) (hS : pos + 2 ≤ S) (hsnd : snd ≠ .INVALID) :
    (clusterRo w pos stop linked first snd cls).Sat (AllP b S) := by
  unfold clusterRo
  repeat' pstep


omit hct in
theorem auraRo_sat (hs : stop ≤ w.length) (pos : Nat) (first : Nat) (snd : InitConsSound) (cls : InitConsClass)
    (hb : b ≤ pos) (hsp : pos ≤ b + 1) (hS : stop ≤ S) (hsnd : snd ≠ .INVALID) :
    (auraRo ct w pos stop first snd cls).Sat (AllP b S) := by
  unfold auraRo
  dsimp only
  repeat' pstep

omit hct in
theorem clusters_sat (hs : stop ≤ w.length) (pos : Nat) (linked : Bool) (first sec : Nat) (snd : InitConsSound)
    (cls : InitConsClass) (hb : b ≤ pos) (hsp : pos ≤ b + 1) (hS : stop ≤ S) (hS2 : pos + 2 ≤ S)
    (hsnd : snd ≠ .INVALID) :
    (clusters ct w pos stop linked first sec snd cls).Sat (AllP b S) := by
  unfold clusters
  split
  · refine Sat.bind (clusterRo_sat hs pos linked first snd cls hb hsp hS2 hsnd) fun a ha => ?_
    refine Sat.bind (auraRo_sat hs pos first snd cls hb hsp hS hsnd) fun a' ha' => ?_
    exact ha.append ha'
  repeat' pstep

theorem twoCons_sat (hs : stop ≤ w.length) (pos : Nat) (linked : Bool) (first sec : Nat) (snd : InitConsSound)
    (cls : InitConsClass) (hb : b ≤ pos) (hsp : pos ≤ b + 1) (hS : stop ≤ S) (hS2 : pos + 2 ≤ S)
    (hsnd : snd ≠ .INVALID) (hsec : ct.isCons sec = true) :
    (twoCons ct w pos stop linked first sec snd cls).Sat (AllP b S) := by
  unfold twoCons
  refine Sat.bind (initConsSound_sat hct hsec) fun snd2 hsnd2 => ?_
  refine Sat.bind (initConsClass_sat hct hsec) fun cls2 _ => ?_
  refine Sat.bind (clusters_sat hs pos linked first sec snd cls hb hsp hS hS2 hsnd) fun a ha => ?_
  dsimp only
  repeat' pstep

theorem consRu_sat (hs : stop ≤ w.length) (pos first : Nat) (snd : InitConsSound)
    (cls : InitConsClass) (hb : b ≤ pos) (hsp : pos ≤ b + 1) (hS2 : pos + 2 ≤ S)
    (hsnd : snd ≠ .INVALID) :
    (consRu ct w pos stop first snd cls).Sat (AllP b S) := by
  unfold consRu
  dsimp only
  repeat' pstep

theorem matchInitCons_sat (hs : stop ≤ w.length) (pos : Nat) (linked : Bool) (hp : pos < w.length)
    (hb : b ≤ pos) (hsp : pos ≤ b + 1) (hS : stop ≤ S) (hS1 : pos + 1 ≤ S) :
    (matchInitCons ct w pos stop linked).Sat (AllP b S) := by
  unfold matchInitCons
  refine Sat.bind (strAt_sat hp) fun first hf => ?_
  split
  · exact AllP.nil
  have hc : ct.isCons first = true := by simp_all
  refine Sat.bind (initConsSound_sat hct hc) fun snd hsnd => ?_
  refine Sat.bind (initConsClass_sat hct hc) fun cls _ => ?_
  dsimp only
  have fin : ∀ a, AllP b S a → Sat (if pos + 1 < stop then do
      if isSylStart ct (← strAt w (pos + 1)) then
        let c ← pure [{ pos := pos + 1, pre := none, iConsSound := snd, iConsClass := cls, iCons2 := SC.NONE, vowel := VW.A, eConsClass := .NONE, tone := .SAMAN, isComplete := true }]
        pure (a ++ [({ pos := pos + 1, pre := none, iConsSound := snd, iConsClass := cls } : PartialSyl)] ++ c)
      else
        let c ← pure []
        pure (a ++ [({ pos := pos + 1, pre := none, iConsSound := snd, iConsClass := cls } : PartialSyl)] ++ c)
    else do
      let c ← pure []
      pure (a ++ [({ pos := pos + 1, pre := none, iConsSound := snd, iConsClass := cls } : PartialSyl)] ++ c))
      (AllP b S) := by
    intro a ha
    repeat' pstep
  refine sat_ite (fun h => ?_) (fun h => fin [] AllP.nil)
  refine Sat.bind (strAt_sat (by omega)) fun sec _ => ?_
  refine sat_ite (fun h' => ?_) (fun h' => sat_ite (fun h'' => ?_) (fun h'' => fin [] AllP.nil))
  · exact Sat.bind (twoCons_sat hct hs pos linked first sec snd cls hb hsp hS (by omega) hsnd h') fin
  · exact Sat.bind (consRu_sat (b := b) (S := S) hct hs pos first snd cls hb hsp (by omega) hsnd) fin

omit hct in
theorem concatRes_sat {α} {f : α → Res (List Emit)} {l : List α} {P : α → Prop} (hl : ∀ a ∈ l, P a)
    (hf : ∀ a, P a → (f a).Sat (AllE ct w b stop S)) : (concatRes f l).Sat (AllE ct w b stop S) := by
  induction l with
  | nil => exact AllE.nil
  | cons a l ih =>
    refine Sat.bind (hf a (hl a (by simp))) fun x hx => ?_
    exact Sat.bind (ih fun a ha => hl a (by simp [ha])) fun y hy => hx.append hy

theorem parseThCons_sat (hs : stop ≤ w.length) (pos : Nat) (linked : Bool) (hp : pos < stop) :
    (parseThCons ct w pos stop linked).Sat (AllE ct w pos stop stop) := by
  unfold parseThCons
  refine Sat.bind (matchInitCons_sat hct hs pos linked (by omega) (Nat.le_refl _) (by omega) (Nat.le_refl _) hp)
    fun ps hps => ?_
  exact concatRes_sat hps fun p h => thConsOne_sat hct hs linked p (Nat.le_refl _) h

theorem parseSaraE_sat (hs : stop ≤ w.length) (pos : Nat) (linked : Bool) :
    (parseSaraE ct w pos stop linked).Sat (AllE ct w pos stop stop) := by
  unfold parseSaraE
  split
  · exact AllE.nil
  refine Sat.bind (matchInitCons_sat (b := pos) hct hs (pos + 1) linked (by omega) (by omega) (by omega) (Nat.le_refl _)
    (by omega)) fun ps hps => ?_
  exact concatRes_sat hps fun p h => saraEOne_sat hct hs p (Nat.le_refl _) h

/-- With a text that goes on after the vowel. -/
theorem parseOtherLV_sat (hs : stop ≤ w.length) (pos : Nat) (linked : Bool) (hp : pos + 1 < w.length) :
    (parseOtherLV ct w pos stop linked).Sat (AllE ct w pos stop (max stop (pos + 2))) := by
  unfold parseOtherLV
  refine Sat.bind (strAt_sat (by omega)) fun c hc => ?_
  refine Sat.bind (matchInitCons_sat (b := pos) hct hs (pos + 1) linked (by omega) (by omega) (by omega) (S := max stop (pos + 2)) (by omega)
    (by omega)) fun ps hps => ?_
  exact concatRes_sat hps fun p h => otherLVOne_sat hct hs c p (by omega) h

omit hct in
/-- At the end of the text. -/
theorem parseOtherLV_throw (pos : Nat) (linked : Bool) (hp : pos + 1 = w.length) :
    parseOtherLV ct w pos stop linked = .throw .outOfRange := by
  unfold parseOtherLV matchInitCons
  obtain ⟨c, hc⟩ : ∃ c, w[pos]? = some c := ⟨_, List.getElem?_eq_getElem (by omega)⟩
  rw [strAt_eq hc, strAt_throw (by omega)]
  rfl

end
end Thpronun
