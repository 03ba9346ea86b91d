import Verif.Model.ParserAssert
import Verif.Lemmas.ParserFacts
import Verif.Lemmas.ParserInt
import Verif.Lemmas.Spelling
import Verif.Spec.Assert

/-! # The parser built with assertions does what it does without them -/

namespace Thpronun
open Res Spec

/-- The two programs do the same. -/
def Ag {α} (c : Chk α) (r : Res α) : Prop := c = .run r

section
variable {α β : Type}

theorem ag_pure (a : α) : Ag (pure a) (.ok a) := rfl
theorem ag_run (r : Res α) : Ag (.run r) r := rfl
theorem ag_lift (r : Res α) : Ag (liftM r) r := rfl

theorem ag_bind {c : Chk α} {r : Res α} {f : α → Chk β} {g : α → Res β} (h : Ag c r)
    (hf : ∀ a, r = .ok a → Ag (f a) (g a)) : Ag (c >>= f) (r >>= g) := by
  rw [Ag] at h; subst h
  cases r with
  | ok a => exact hf a rfl
  | throw e => rfl
  | ub => rfl
  | diverge => rfl

theorem ag_bindP {c : Chk α} {r : Res α} {f : α → Chk β} {g : α → Res β} {P : α → Prop} (h : Ag c r)
    (hP : r.SatP P) (hf : ∀ a, P a → Ag (f a) (g a)) : Ag (c >>= f) (r >>= g) :=
  ag_bind h fun a ha => hf a ((satP_iff _ _).mp hP a ha)

theorem ag_ite {p : Prop} [Decidable p] {c d : Chk α} {r s : Res α} (h : p → Ag c r) (h' : ¬ p → Ag d s) :
    Ag (if p then c else d) (if p then r else s) := by
  split
  · exact h ‹_›
  · exact h' ‹_›

theorem ag_assert {p : Prop} [Decidable p] {f : Unit → Chk α} {r : Res α} (h : p) (hf : Ag (f ()) r) :
    Ag (assert p >>= f) r := by
  unfold assert; rw [if_pos h]; exact hf

theorem ag_concat {f : α → Chk (List β)} {g : α → Res (List β)} : ∀ {l : List α}, (∀ a ∈ l, Ag (f a) (g a)) →
    Ag (concatChk f l) (concatRes g l)
  | [], _ => ag_pure _
  | a :: l, h => by
    rw [concatChk, concatRes]
    refine ag_bind (h a (by simp)) fun x _ => ag_bind (ag_concat fun b hb => h b (by simp [hb])) fun y _ => ag_pure _

end

/-- One step through two functions of the same shape. -/
macro "ag1" : tactic => `(tactic| first
  | with_reducible exact ag_pure _
  | exact ag_lift _
  | with_reducible assumption
  | with_reducible refine ag_ite (fun _ => ?_) (fun _ => ?_)
  | (refine ag_bind (ag_lift _) fun _ _ => ?_))

section
variable {ct : CType} {w : U16Str} {t : Nat}

theorem ag_initConsClass {c : Nat} (hct : ct.Ok) (h : ct.isCons c = true) : Ag (initConsClassD c) (initConsClass c) := by
  have := hct.cons _ h
  exact ag_assert ⟨this.1, this.2.1⟩ (ag_lift _)

theorem ag_initConsSound {c : Nat} (hct : ct.Ok) (h : ct.isCons c = true) : Ag (initConsSoundD c) (initConsSound c) := by
  have := hct.cons _ h
  exact ag_assert ⟨this.1, this.2.1⟩ (ag_lift _)

theorem ag_endConsClass {c : Nat} (hct : ct.Ok) (h : ct.isCons c = true) : Ag (endConsClassD c) (endConsClass c) := by
  have := hct.cons _ h
  exact ag_assert ⟨this.1, this.2.1⟩ (ag_lift _)

theorem ag_twoCons (hct : ct.Ok) {pos : Nat} {l : Bool} {first sec : Nat} {snd cls} (h : ct.isCons sec = true) :
    Ag (twoConsD ct w pos t l first sec snd cls) (twoCons ct w pos t l first sec snd cls) := by
  unfold twoConsD twoCons
  refine ag_bind (ag_initConsSound hct h) fun snd2 _ => ag_bind (ag_initConsClass hct h) fun cls2 _ => ?_
  refine ag_bind (ag_lift _) fun a _ => ?_
  dsimp only
  repeat' ag1

theorem ag_consRu (hct : ct.Ok) {pos : Nat} {first : Nat} {snd cls} :
    Ag (consRuD ct w pos t first snd cls) (consRu ct w pos t first snd cls) := by
  unfold consRuD consRu
  dsimp only
  repeat' first
    | ag1
    | (refine ag_bind (ag_endConsClass hct (by assumption)) fun _ _ => ?_)

theorem ag_matchInitCons (hct : ct.Ok) (ht : t ≤ w.length) {pos : Nat} (hp : pos < t) {l : Bool} :
    Ag (matchInitConsD ct w pos t l) (matchInitCons ct w pos t l) := by
  unfold matchInitConsD matchInitCons
  refine ag_assert ht <| ag_assert hp ?_
  refine ag_bind (ag_lift _) fun first _ => ag_ite (fun _ => ag_pure _) fun h => ?_
  have h : ct.isCons first = true := by simpa using h
  refine ag_bind (ag_initConsSound hct h) fun snd _ => ag_bind (ag_initConsClass hct h) fun cls _ => ?_
  dsimp only
  repeat' first
    | ag1
    | (refine ag_bind (ag_twoCons hct (by assumption)) fun _ _ => ?_)
    | (refine ag_bind (ag_consRu hct) fun _ _ => ?_)

/-- How far the parts of initial consonants reach. -/
theorem matchInitCons_le (hct : ct.Ok) (ht : t ≤ w.length) {pos : Nat} (hp : pos < t) {l : Bool} {ps}
    (h : matchInitCons ct w pos t l = .ok ps) : ∀ p ∈ ps, p.pos ≤ t := by
  have := matchInitCons_sat (ct := ct) (b := pos) (S := t) hct ht pos l (by omega) le_rfl (by omega) le_rfl hp
  rw [h] at this
  intro p hp
  exact (this p hp).hi

/-! ## Karan and ending consonants -/

theorem ag_karanSimple (ht : t ≤ w.length) {pos : Nat} (hp : pos ≤ t) :
    Ag (matchKaranSimpleD ct w pos t) (matchKaranSimple ct w pos t) := by
  unfold matchKaranSimpleD matchKaranSimple
  refine ag_assert ht <| ag_assert hp ?_
  repeat' ag1

theorem ag_karanIU (ht : t ≤ w.length) {pos : Nat} (hp : pos ≤ t) :
    Ag (matchKaranIUD ct w pos t) (matchKaranIU ct w pos t) := by
  unfold matchKaranIUD matchKaranIU
  refine ag_assert ht <| ag_assert hp ?_
  repeat' ag1

theorem ag_karanComplex (ht : t ≤ w.length) {pos : Nat} (hp : pos ≤ t) :
    Ag (matchKaranComplexD ct w pos t) (matchKaranComplex ct w pos t) := by
  unfold matchKaranComplexD matchKaranComplex
  refine ag_assert ht <| ag_assert hp <| ag_bind (ag_karanSimple ht hp) fun k _ => ?_
  repeat' ag1

theorem ag_endConsOf (hct : ct.Ok) {c : Nat} {excl : List Nat} : Ag (endConsOfD ct c excl) (endConsOf ct c excl) := by
  unfold endConsOfD endConsOf
  refine ag_ite (fun h => ag_bind (ag_endConsClass hct h) fun e _ => ?_) fun _ => ag_pure _
  repeat' ag1

theorem ag_endSimple (hct : ct.Ok) (ht : t ≤ w.length) {p : PartialSyl} (hp : p.pos < t) {excl : List Nat} :
    Ag (eatEndConsSimpleD ct w t p excl) (eatEndConsSimple ct w t p excl) := by
  unfold eatEndConsSimpleD eatEndConsSimple
  refine ag_assert ht <| ag_assert hp.le <| ag_bind (ag_lift _) fun c _ => ag_bind (ag_endConsOf hct) fun e _ => ?_
  cases e with
  | none => exact ag_pure _
  | some e => exact ag_bind (ag_karanComplex ht hp) fun k _ => ag_pure _

theorem ag_endComplex (hct : ct.Ok) (ht : t ≤ w.length) {p : PartialSyl} (hp : p.pos < t) {excl : List Nat} :
    Ag (eatEndConsComplexD ct w t p excl) (eatEndConsComplex ct w t p excl) := by
  unfold eatEndConsComplexD eatEndConsComplex
  refine ag_assert ht <| ag_assert hp.le <| ag_bind (ag_lift _) fun c _ => ag_bind (ag_endConsOf hct) fun e _ => ?_
  cases e with
  | none => exact ag_pure _
  | some e =>
    dsimp only
    refine ag_bind (ag_karanComplex ht hp) fun k _ => ?_
    repeat' ag1

/-! ## Rimes -/

section
variable {α : Type}

theorem ag_bOk {β : Type} {a : β} {f : β → Chk α} {r : Res α} (h : Ag (f a) r) : Ag (liftM (Res.ok a) >>= f) r := h

theorem ag_bPure {β : Type} {a : β} {f : β → Chk α} {g : β → Res α} (h : Ag (f a) (g a)) :
    Ag (pure a >>= f) (pure a >>= g) := h

theorem ag_bKaran (ht : t ≤ w.length) {pos : Nat} {f : Nat → Chk α} {g : Nat → Res α} (hp : pos ≤ t)
    (hf : ∀ k, pos ≤ k → k ≤ t → Ag (f k) (g k)) :
    Ag (matchKaranSimpleD ct w pos t >>= f) (matchKaranSimple ct w pos t >>= g) := by
  refine ag_bindP (ag_karanSimple ht hp) karanSimple_satP fun k hk => ?_
  rcases hk with ⟨⟨c, -, -, h, -⟩, rfl⟩ | ⟨-, rfl⟩
  · exact hf _ (by omega) (by omega)
  · exact hf _ le_rfl hp

theorem ag_bKaranIU (ht : t ≤ w.length) {pos : Nat} {f : Nat → Chk α} {g : Nat → Res α} (hp : pos ≤ t)
    (hf : ∀ k, pos ≤ k → k ≤ t → Ag (f k) (g k)) :
    Ag (matchKaranIUD ct w pos t >>= f) (matchKaranIU ct w pos t >>= g) := by
  refine ag_bindP (ag_karanIU ht hp) karanIU_satP fun k hk => ?_
  rcases hk with ⟨⟨c, d, -, -, -, -, h, -⟩, rfl⟩ | ⟨-, rfl⟩
  · exact hf _ (by omega) (by omega)
  · exact hf _ le_rfl hp

theorem ag_bEmit (ht : t ≤ w.length) {p : PartialSyl} {f : PartialSyl × List Emit → Chk α}
    {g : PartialSyl × List Emit → Res α} (hp : p.pos ≤ t)
    (hf : ∀ k, p.pos ≤ k → k ≤ t → Ag (f ({ p with pos := k }, [⟨k, false, { p with pos := k }⟩]))
      (g ({ p with pos := k }, [⟨k, false, { p with pos := k }⟩]))) :
    Ag (karanEmitD ct w t p >>= f) (karanEmit ct w t p >>= g) := by
  have h : Ag (karanEmitD ct w t p) (karanEmit ct w t p) := by
    unfold karanEmitD karanEmit
    exact ag_bKaran ht hp fun k _ _ => ag_pure _
  refine ag_bindP h karanEmit_satP ?_
  rintro _ ⟨k, hk, rfl⟩
  rcases hk with ⟨⟨c, -, -, h, -⟩, rfl⟩ | ⟨-, rfl⟩
  · exact hf _ (by omega) (by omega)
  · exact hf _ le_rfl hp

theorem ag_bTone {p : PartialSyl} {c : Nat} {f : PartialSyl → Chk α} {g : PartialSyl → Res α}
    (hf : ∀ m k, k = p.pos ∧ ct.isTone c = false ∨ k = p.pos + 1 ∧ ct.isTone c = true → Ag (f { p with tone := m, pos := k }) (g { p with tone := m, pos := k })) :
    Ag (readToneD ct p c >>= f) (readTone ct p c >>= g) := by
  unfold readToneD readTone
  by_cases h : ct.isTone c = true
  · rw [if_pos h, if_pos h]
    have h1 : Ag (thCharToToneD ct c) (thCharToTone c) := ag_assert h (ag_lift _)
    rw [Ag] at h1
    rw [h1]
    cases thCharToTone c with
    | ok m => exact hf m (p.pos + 1) (.inr ⟨rfl, h⟩)
    | throw e => rfl
    | ub => rfl
    | diverge => rfl
  · rw [if_neg h, if_neg h]
    exact hf p.tone p.pos (.inl ⟨rfl, by simpa using h⟩)

theorem ag_bChar {i c : Nat} {f : Bool → Chk α} {g : Bool → Res α} (h1 : i < t → Ag (f true) (g true))
    (h2 : Ag (f false) (g false)) : Ag (liftM (isCharAt w t i c) >>= f) (isCharAt w t i c >>= g) := by
  refine ag_bindP (ag_lift _) isCharAt_satP fun b hb => ?_
  cases b with
  | false => exact h2
  | true => exact h1 (hb.mp rfl).1

end

/-- One step, with what is known of positions. -/
macro "agp" ht:ident hct:ident : tactic => `(tactic| first
  | with_reducible exact ag_pure _
  | with_reducible assumption
  | with_reducible refine ag_ite (fun _ => ?_) (fun _ => ?_)
  | (with_reducible refine ag_bPure ?_; try dsimp only)
  | (with_reducible refine ag_bKaran $ht (by omega) fun _ _ _ => ?_)
  | (with_reducible refine ag_bKaranIU $ht (by omega) fun _ _ _ => ?_)
  | (with_reducible refine ag_bEmit $ht (by first | omega | (dsimp only; omega)) fun _ _ _ => ?_; try dsimp only)
  | (with_reducible refine ag_bTone fun _ _ _ => ?_; try dsimp only at *)
  | (with_reducible refine ag_bChar (fun _ => ?_) ?_ <;> simp only [↓reduceIte, Bool.false_eq_true])
  | (with_reducible exact ag_endSimple $hct $ht (by first | omega | (dsimp only; omega)))
  | (with_reducible exact ag_endComplex $hct $ht (by first | omega | (dsimp only; omega)))
  | (with_reducible refine ag_bind (ag_endSimple $hct $ht (by first | omega | (dsimp only; omega))) fun _ _ => ?_)
  | (with_reducible refine ag_bind (ag_endComplex $hct $ht (by first | omega | (dsimp only; omega))) fun _ _ => ?_)
  | (refine ag_bind (ag_lift _) fun _ _ => ?_)
  | exact ag_lift _)

theorem ag_hanAkat (hct : ct.Ok) (ht : t ≤ w.length) {p : PartialSyl} :
    Ag (hanAkatD ct w t p) (hanAkat ct w t p) := by
  unfold hanAkatD hanAkat
  dsimp only
  repeat' agp ht hct

theorem ag_upBlEnd (hct : ct.Ok) (ht : t ≤ w.length) {p : PartialSyl} :
    Ag (upBlEndD ct w t p) (upBlEnd ct w t p) := by
  unfold upBlEndD upBlEnd
  dsimp only
  repeat' agp ht hct

theorem ag_upBlVowel (hct : ct.Ok) (ht : t ≤ w.length) {p : PartialSyl} {c : Nat} (hp : p.pos < t)
    (hc : ct.isUpVowel c = true ∨ ct.isBlVowel c = true) : Ag (upBlVowelD ct w t p c) (upBlVowel ct w t p c) := by
  unfold upBlVowelD upBlVowel
  refine ag_bind (ag_assert hc (ag_lift _)) fun v _ => ?_
  dsimp only
  repeat' first
    | (with_reducible refine ag_bind (ag_upBlEnd hct ht) fun _ _ => ?_)
    | with_reducible exact ag_upBlEnd hct ht
    | agp ht hct

theorem ag_maitaikhuO (hct : ct.Ok) (ht : t ≤ w.length) {p : PartialSyl} :
    Ag (maitaikhuOD ct w t p) (maitaikhuO ct w t p) := by
  unfold maitaikhuOD maitaikhuO
  dsimp only
  repeat' agp ht hct

theorem ag_roRua (hct : ct.Ok) (ht : t ≤ w.length) {p : PartialSyl} (hp : p.pos ≤ t) :
    Ag (roRuaD ct w t p) (roRua ct w t p) := by
  unfold roRuaD roRua
  dsimp only
  repeat' agp ht hct

theorem ag_consCons (hct : ct.Ok) (ht : t ≤ w.length) {l : Bool} {p : PartialSyl} {c : Nat} (hp : p.pos < t) :
    Ag (consConsD ct w t l p c) (consCons ct w t l p c) := by
  unfold consConsD consCons
  dsimp only
  repeat' first
    | (with_reducible refine ag_bind (ag_endConsClass hct (by assumption)) fun _ _ => ?_)
    | agp ht hct

theorem ag_plainCons (hct : ct.Ok) (ht : t ≤ w.length) {l : Bool} {p : PartialSyl} {c : Nat} :
    Ag (plainConsD ct w t l p c) (plainCons ct w t l p c) := by
  unfold plainConsD plainCons
  dsimp only
  repeat' first
    | (with_reducible exact ag_roRua hct ht (by first | omega | (dsimp only; omega)))
    | (with_reducible exact ag_consCons hct ht (by first | omega | (dsimp only; omega)))
    | agp ht hct

theorem ag_thConsOne (hct : ct.Ok) (ht : t ≤ w.length) {l : Bool} {p : PartialSyl} :
    Ag (thConsOneD ct w t l p) (thConsOne ct w t l p) := by
  unfold thConsOneD thConsOne
  refine ag_ite (fun _ => ag_pure _) fun h => ag_ite (fun _ => ag_pure _) fun _ => ag_bind (ag_lift _) fun c _ => ?_
  refine ag_ite (fun _ => ag_hanAkat hct ht) fun _ => ag_ite (fun hc => ag_upBlVowel hct ht (by dsimp only; omega) ?_) fun _ =>
    ag_ite (fun _ => ag_maitaikhuO hct ht) fun _ => ag_plainCons hct ht
  simpa using hc

theorem ag_parseThCons (hct : ct.Ok) (ht : t ≤ w.length) {pos : Nat} {l : Bool} (hp : pos < t) :
    Ag (parseThConsD ct w pos t l) (parseThCons ct w pos t l) := by
  unfold parseThConsD parseThCons
  exact ag_assert ht <| ag_assert hp <| ag_bind (ag_matchInitCons hct ht hp) fun ps _ => ag_concat fun _ _ => ag_thConsOne hct ht

theorem ag_saraEI (hct : ct.Ok) (ht : t ≤ w.length) {p : PartialSyl} :
    Ag (saraEID ct w t p) (saraEI ct w t p) := by
  unfold saraEID saraEI
  dsimp only
  repeat' agp ht hct

theorem ag_saraEMid (hct : ct.Ok) (ht : t ≤ w.length) {mid : Nat} {vs vl : Int} {b : Bool} {p : PartialSyl} :
    Ag (saraEMidD ct w t mid vs vl b p) (saraEMid ct w t mid vs vl b p) := by
  unfold saraEMidD saraEMid
  dsimp only
  repeat' agp ht hct

theorem ag_saraEPlain (hct : ct.Ok) (ht : t ≤ w.length) {p : PartialSyl} (hp : p.pos ≤ t) :
    Ag (saraEPlainD ct w t p) (saraEPlain ct w t p) := by
  unfold saraEPlainD saraEPlain
  dsimp only
  repeat' agp ht hct

theorem ag_saraERest (hct : ct.Ok) (ht : t ≤ w.length) {p : PartialSyl} {c : Nat} (hp : p.pos < t) :
    Ag (saraERestD ct w t p c) (saraERest ct w t p c) := by
  unfold saraERestD saraERest
  dsimp only
  repeat' first
    | (with_reducible exact ag_saraEPlain hct ht (by first | omega | (dsimp only; omega)))
    | agp ht hct

theorem ag_saraEOne (hct : ct.Ok) (ht : t ≤ w.length) {p : PartialSyl} :
    Ag (saraEOneD ct w t p) (saraEOne ct w t p) := by
  unfold saraEOneD saraEOne
  refine ag_ite (fun _ => ag_pure _) fun _ => ?_
  dsimp only
  refine ag_ite (fun _ => ag_ite (fun _ => ag_pure _) fun _ => ag_pure _) fun hp => ag_bind (ag_lift _) fun c _ => ?_
  refine ag_ite (fun _ => ag_saraEI hct ht) fun _ => ag_ite (fun _ => ag_saraEMid hct ht) fun _ =>
    ag_ite (fun _ => ag_saraEMid hct ht) fun _ => ag_ite (fun _ => ?_) fun _ => ag_bTone fun m k hk => ?_
  · exact ag_ite (fun _ => ag_endSimple hct ht (by first | omega | (dsimp only; omega))) fun _ => ag_pure _
  · refine ag_ite (fun _ => ag_pure _) fun h => ag_bind (ag_lift _) fun _ _ => ag_saraERest hct ht ?_
    dsimp only at *
    rcases hk with ⟨rfl, -⟩ | ⟨rfl, hc⟩
    · omega
    · simp only [hc, true_and] at h; omega

theorem ag_parseSaraE (hct : ct.Ok) (ht : t ≤ w.length) {pos : Nat} {l : Bool} (hp : pos < t)
    (hc : strAt w pos = .ok UTH.SARA_E) : Ag (parseSaraED ct w pos t l) (parseSaraE ct w pos t l) := by
  unfold parseSaraED parseSaraE
  refine ag_assert ht <| ag_assert hp ?_
  rw [hc]
  refine ag_bOk <| ag_assert rfl <| ag_ite (fun _ => ag_pure _) fun h => ag_bind (ag_matchInitCons hct ht (by omega)) fun ps _ =>
    ag_concat fun _ _ => ag_saraEOne hct ht

theorem ag_saraAe (hct : ct.Ok) (ht : t ≤ w.length) {p : PartialSyl} (hp : p.pos ≤ t) :
    Ag (saraAeD ct w t p) (saraAe ct w t p) := by
  unfold saraAeD saraAe
  dsimp only
  repeat' agp ht hct

theorem ag_saraO (hct : ct.Ok) (ht : t ≤ w.length) {p : PartialSyl} (hp : p.pos ≤ t) :
    Ag (saraOD ct w t p) (saraO ct w t p) := by
  unfold saraOD saraO
  dsimp only
  repeat' agp ht hct

theorem ag_saraAiMalai (hct : ct.Ok) (ht : t ≤ w.length) {p : PartialSyl} (hp : p.pos ≤ t) :
    Ag (saraAiMalaiD ct w t p) (saraAiMalai ct w t p) := by
  unfold saraAiMalaiD saraAiMalai
  dsimp only
  repeat' agp ht hct

theorem ag_otherLVOne (hct : ct.Ok) (ht : t ≤ w.length) {c : Nat} {p : PartialSyl} (hp : p.pos ≤ t) :
    Ag (otherLVOneD ct w t c p) (otherLVOne ct w t c p) := by
  unfold otherLVOneD otherLVOne
  dsimp only
  repeat' first
    | (with_reducible exact ag_saraAe hct ht (by first | omega | (dsimp only; omega)))
    | (with_reducible exact ag_saraO hct ht (by first | omega | (dsimp only; omega)))
    | (with_reducible exact ag_saraAiMalai hct ht (by first | omega | (dsimp only; omega)))
    | agp ht hct

theorem ag_parseOtherLV (hct : ct.Ok) (ht : t ≤ w.length) {pos c : Nat} {l : Bool} (hp : pos + 1 < t)
    (hc : strAt w pos = .ok c) (hl : ct.isLdVowel c = true) (hne : c ≠ UTH.SARA_E) :
    Ag (parseOtherLVD ct w pos t l) (parseOtherLV ct w pos t l) := by
  unfold parseOtherLVD parseOtherLV
  refine ag_assert ht <| ag_assert (by omega) ?_
  rw [hc]
  refine ag_bOk <| ag_assert hl <| ag_bOk <| ag_assert (Ne.symm hne) <| ag_bOk ?_
  exact ag_bind (ag_matchInitCons hct ht hp) fun ps hps =>
    ag_concat fun p h => ag_otherLVOne hct ht (matchInitCons_le hct ht hp hps p h)

/-- A leading vowel other than SARA E at the end of its token. -/
theorem abort_parseOtherLV {pos c : Nat} {l : Bool} (ht : pos + 1 ≤ w.length)
    (hc : strAt w pos = .ok c) (hl : ct.isLdVowel c = true) (hne : c ≠ UTH.SARA_E) :
    parseOtherLVD ct w pos (pos + 1) l = .abort := by
  unfold parseOtherLVD matchInitConsD assert
  rw [hc, if_pos ht, if_pos (Nat.lt_succ_self _), if_neg (Nat.lt_irrefl _)]
  show (do assert (ct.isLdVowel c = true); assert (UTH.SARA_E ≠ c); _ : Chk (List Emit)) = _
  unfold assert
  rw [if_pos hl, if_pos (Ne.symm hne)]
  rfl

theorem ag_parseRuLu (hct : ct.Ok) (ht : t ≤ w.length) {pos c : Nat} (hp : pos < t) (hc : strAt w pos = .ok c)
    (h : UTH.RU = c ∨ UTH.LU = c) : Ag (parseRuLuD ct w pos t) (parseRuLu ct w pos t) := by
  unfold parseRuLuD parseRuLu
  refine ag_assert ht <| ag_assert hp ?_
  rw [hc]
  refine ag_assert h ?_
  show Ag _ _
  dsimp only
  repeat' first
    | (with_reducible refine ag_bind (ag_endConsClass hct (by assumption)) fun _ _ => ?_)
    | agp ht hct

/-! ## The main loop -/

theorem ag_abbrDag (hct : ct.Ok) {e : Nat} : ∀ {fuel pos : Nat} {d : PronunDAG},
    Ag (abbrDagD ct w fuel pos e d) (abbrDag ct w fuel pos e d)
  | 0, _, _ => rfl
  | fuel + 1, pos, d => by
    rw [abbrDagD, abbrDag]
    refine ag_ite (fun _ => ag_bind (ag_lift _) fun c _ => ag_ite (fun hc => ?_) fun _ => ag_abbrDag hct) fun _ => ag_pure _
    dsimp only
    repeat' first
      | (with_reducible refine ag_bind (ag_initConsSound hct hc) fun _ _ => ag_bind (ag_initConsClass hct hc) fun _ _ => ?_)
      | exact ag_abbrDag hct
      | ag1

theorem ag_findAbbr (hct : ct.Ok) {s : PState} (ht : s.stop ≤ w.length) (hp : s.pos < s.stop) :
    Ag (findAbbrD ct w s) (findAbbr ct w s) := by
  unfold findAbbrD findAbbr
  refine ag_assert ht <| ag_assert hp <| ag_bind (ag_lift _) fun b _ => ag_ite (fun _ => ?_) fun _ => ag_pure _
  refine ag_bind (ag_lift _) fun r _ => ?_
  cases r with
  | none => exact ag_pure _
  | some r =>
    obtain ⟨e, n, b⟩ := r
    exact ag_ite (fun _ => ag_pure _) fun _ => ag_bind (ag_abbrDag hct) fun _ _ => ag_pure _

theorem ag_nextWordStop {p : Nat} {brk : List Int} (h : Token ct w p) :
    Ag (nextWordStopD ct w p brk) (nextWordStop ct w p brk) := by
  obtain ⟨c, hc, htok⟩ := h
  unfold nextWordStopD
  rw [strAt_eq hc]
  exact ag_bOk <| ag_assert htok (ag_lift _)

theorem ag_refresh {brk : List Int} {s : PState} : Ag (refreshD ct w brk s) (refresh ct w brk s) := by
  unfold refreshD refresh
  dsimp only
  by_cases hg : skipNonThai ct w s.pos > s.pos
  · simp only [if_pos hg]
    exact ag_ite (fun hl => ag_bind (ag_nextWordStop (skipNonThai_token hl)) fun _ _ => ag_pure _) fun _ => ag_pure _
  · simp only [if_neg hg]
    exact ag_ite (fun hl => ag_bind (ag_nextWordStop (token_of_skip_eq hl hg)) fun _ _ => ag_pure _) fun _ => ag_pure _

/-- The state is at a leading vowel other than SARA E that ends its token. -/
def TripS (ct : CType) (w : U16Str) (dict : Option Dict) (s : PState) : Prop :=
  s.pos + 1 = s.stop ∧ exceptions ct w dict s = .ok [] ∧
    ∃ x, w[s.pos]? = some x ∧ ct.isLdVowel x = true ∧ x ≠ UTH.SARA_E

theorem ag_parseChar (hct : ct.Ok) {s : PState} (ht : s.stop ≤ w.length) (hp : s.pos < s.stop)
    (hn : ∀ x, w[s.pos]? = some x → ct.isLdVowel x = true → x ≠ UTH.SARA_E → s.pos + 1 ≠ s.stop) {pool : StatePool} :
    Ag (parseCharD ct w s pool) (parseChar ct w s pool) := by
  unfold parseCharD parseChar
  refine ag_bind (ag_lift _) fun c hc => ?_
  refine ag_ite (fun h => ag_bind (ag_parseThCons hct ht hp) fun _ _ => ag_pure _) fun _ => ?_
  refine ag_ite (fun h => ag_bind (ag_parseSaraE hct ht hp (by rw [hc, h])) fun _ _ => ag_pure _) fun hne => ?_
  refine ag_ite (fun h => ag_bind (ag_parseOtherLV hct ht ?_ hc h (Ne.symm hne)) fun _ _ => ag_pure _) fun _ => ?_
  · have := hn c ((satP_iff _ _).mp strAt_satP c hc) h (Ne.symm hne)
    omega
  refine ag_ite (fun h => ag_bind (ag_parseRuLu hct ht hp hc h) fun _ _ => ag_pure _) fun _ => ?_
  exact ag_ite (fun h => ag_bind (ag_lift _) fun _ _ => ag_pure _) fun _ => ag_pure _

variable {brk : List Int} {look : List Nat → Option Str}

theorem ag_exceptions {dict : Option Dict} {s : PState} (ht : s.stop ≤ w.length) (hp : s.pos < s.stop) :
    Ag (match dict with
        | some d => findExceptionsD ct w s d
        | none => pure []) (exceptions ct w dict s) := by
  cases dict with
  | none => exact ag_pure _
  | some d => exact ag_assert ht <| ag_assert hp (ag_lift _)

theorem parseStepD_token {dict : Option Dict} {s : PState} {pool : StatePool} {acc : PronunDAG} (h1 : ¬ s.pos ≥ w.length)
    (h2 : ¬ s.pos ≥ s.stop) : parseStepD ct w dict brk (s :: pool, acc) =
    (match dict with
      | some d => findExceptionsD ct w s d
      | none => pure []) >>= fun ex =>
      if ex.length > 0 then pure (.inl (ex.foldl StatePool.add pool, acc))
      else findAbbrD ct w s >>= fun r =>
        match r with
        | some s' => pure (.inl (StatePool.add pool s', acc))
        | none => parseCharD ct w s pool >>= fun x => pure (.inl (x, acc)) := by
  rw [parseStepD, if_neg h1, if_neg h2]
  cases dict <;> rfl

theorem parseStep_token {dict : Option Dict} {s : PState} {pool : StatePool} {acc : PronunDAG} (h1 : ¬ s.pos ≥ w.length)
    (h2 : ¬ s.pos ≥ s.stop) : parseStep ct w dict brk (s :: pool, acc) =
    exceptions ct w dict s >>= fun ex =>
      if ex.length > 0 then pure (.inl (ex.foldl StatePool.add pool, acc))
      else findAbbr ct w s >>= fun r =>
        match r with
        | some s' => pure (.inl (StatePool.add pool s', acc))
        | none => parseChar ct w s pool >>= fun x => pure (.inl (x, acc)) := by
  rw [parseStep, if_neg h1, if_neg h2]
  cases dict <;> rfl

/-- A turn of the loop does the same with and without assertions. -/
theorem ag_step (hct : ct.Ok) {dict : Option Dict} {s : PState} {pool : StatePool} {acc : PronunDAG}
    (hs : SOK ct w brk s) (hn : ¬ TripS ct w dict s) :
    Ag (parseStepD ct w dict brk (s :: pool, acc)) (parseStep ct w dict brk (s :: pool, acc)) := by
  by_cases h0 : s.pos ≥ w.length
  · rw [parseStepD, parseStep, if_pos h0, if_pos h0]; exact ag_pure _
  by_cases h : s.pos ≥ s.stop
  · rw [parseStepD, parseStep, if_neg h0, if_neg h0, if_pos h, if_pos h]
    exact ag_bind ag_refresh fun _ _ => ag_pure _
  have hst := hs.stop (by omega)
  rw [parseStepD_token h0 h, parseStep_token h0 h]
  refine ag_bind (ag_exceptions hst.le hst.lt) fun ex hex => ag_ite (fun _ => ag_pure _) fun hl => ?_
  refine ag_bind (ag_findAbbr hct hst.le hst.lt) fun r _ => ?_
  cases r with
  | some s' => exact ag_pure _
  | none =>
    refine ag_bind (ag_parseChar hct hst.le hst.lt ?_) fun _ _ => ag_pure _
    intro x hx h1 h2 h3
    refine hn ⟨h3, ?_, x, hx, h1, h2⟩
    rw [hex]
    cases ex with
    | nil => rfl
    | cons => simp at hl

theorem no_abbr (hct : ct.Ok) {p t x : Nat} (hx : w[p]? = some x) (h : ct.isLdVowel x = true) : ¬ ∃ e, IsAbbr ct w p t e := by
  rintro ⟨e, -, -, ⟨n, -, -, hc, hd⟩ | ⟨-, -, c, hc, hcc⟩⟩
  · have h1 := hct.ld _ h
    cases n with
    | zero => rw [Nat.add_zero, hx] at hd; cases hd; omega
    | succ n =>
      obtain ⟨c, hc, hcc⟩ := hc p le_rfl (by omega)
      rw [hx] at hc; cases hc
      have := hct.cons _ hcc
      omega
  · rw [hx] at hc; cases hc
    have := hct.cons _ hcc
    have := hct.ld _ h
    omega

/-- A leading vowel at the end of its token stops the program. -/
theorem abort_step (hct : ct.Ok) {dict : Option Dict} {s : PState} {pool : StatePool} {acc : PronunDAG}
    (hs : SOK ct w brk s) (hn : TripS ct w dict s) : parseStepD ct w dict brk (s :: pool, acc) = .abort := by
  obtain ⟨h1, hex, x, hx, hld, hne⟩ := hn
  have hst := hs.stop (by omega)
  have h2 := ag_exceptions (ct := ct) (dict := dict) hst.le hst.lt
  have h3 := ag_findAbbr hct hst.le hst.lt
  have h4 : findAbbr ct w s = .ok none := by
    obtain ⟨r, hr, ha⟩ := (sat_iff _ _).mp (findAbbr_sat hct s hst.lt hst.le)
    cases r with
    | none => exact hr
    | some s' => exact absurd ⟨_, ha.choose_spec.1⟩ (no_abbr hct hx hld)
  rw [Ag, hex] at h2
  rw [Ag, h4] at h3
  have h5 : parseCharD ct w s pool = .abort := by
    unfold parseCharD
    rw [strAt_eq hx]
    show (if ct.isCons x = true then _ else _ : Chk StatePool) = _
    have hc : ¬ ct.isCons x = true := by
      intro h
      have := hct.cons _ h
      have := hct.ld _ hld
      omega
    rw [if_neg hc, if_neg (Ne.symm hne), if_pos hld, ← h1,
      abort_parseOtherLV (by have := hst.le; omega) (strAt_eq hx) hld hne]
    rfl
  rw [parseStepD_token (by have := hst.le; omega) (by omega), h2]
  show (findAbbrD ct w s >>= _ : Chk ((StatePool × PronunDAG) ⊕ PronunDAG)) = _
  rw [h3]
  show (parseCharD ct w s pool >>= _ : Chk ((StatePool × PronunDAG) ⊕ PronunDAG)) = _
  rw [h5]
  rfl

/-! ## The whole loop -/

/-- An outcome without a failed assertion. -/
def up {α : Type} : Res α → Res (Chk α)
  | .ok a => .ok (.run (.ok a))
  | .throw e => .throw e
  | .ub => .ub
  | .diverge => .diverge

theorem ofLoop_up {α : Type} (r : Res α) : Chk.ofLoop (up r) = .run r := by cases r <;> rfl

theorem up_diverge {α : Type} {r : Res α} : up r = .diverge ↔ r = .diverge := by cases r <;> simp [up]

/-- Leaving a loop early. -/
theorem loop_cases {σ α : Type} {f : σ → Chk (σ ⊕ α)} {g : σ → Res (σ ⊕ α)} {I : σ → Prop}
    (hI : ∀ s s', I s → g s = .ok (.inl s') → I s') (hf : ∀ s, I s → Ag (f s) (g s) ∨ f s = .abort) {s : σ} (h : I s) :
    whileLoop (chkStep f) s = .ok .abort ∨ whileLoop (chkStep f) s = up (whileLoop g s) := by
  have key : ∀ n s, I s → iterLoop (chkStep f) n s = .ok .abort ∨ iterLoop (chkStep f) n s = up (iterLoop g n s) := by
    intro n
    induction n with
    | zero => exact fun s _ => .inr rfl
    | succ n ih =>
      intro s hs
      rw [iterLoop, iterLoop, chkStep]
      rcases hf s hs with h | h
      · rw [Ag] at h
        rw [h]
        cases hg : g s with
        | ok r =>
          cases r with
          | inl s' => exact ih s' (hI s s' hs hg)
          | inr a => exact .inr rfl
        | throw e => exact .inr rfl
        | ub => exact .inr rfl
        | diverge => exact .inr rfl
      · rw [h]; exact .inl rfl
  by_cases hw : whileLoop (chkStep f) s = .diverge
  · right
    rw [hw, eq_comm, up_diverge]
    by_contra hg
    obtain ⟨n, hn, hn'⟩ := iterLoop_of_whileLoop hg
    have hd : iterLoop (chkStep f) n s = .diverge := by
      by_contra h'
      exact h' ((whileLoop_eq h').symm.trans hw)
    rcases key n s h with h1 | h1
    · rw [hd] at h1; cases h1
    · rw [hd, eq_comm, up_diverge] at h1; exact hn' h1
  · obtain ⟨n, hn, hn'⟩ := iterLoop_of_whileLoop hw
    rw [← hn]
    rcases key n s h with h1 | h1
    · exact .inl h1
    · right
      rw [h1, whileLoop_eq fun h2 => hn' (by rw [h1, h2]; rfl)]

theorem ag_init : Ag (parseInitD ct w brk) (parseInit ct w brk) := ag_bind ag_refresh fun _ _ => ag_pure _

/-- Assertions only ever stop the program. -/
theorem parse_cases (hct : ct.Ok) (dict : Option Dict) :
    parseU16D ct w dict brk = .abort ∨ parseU16D ct w dict brk = .run (parseU16 ct w dict brk) := by
  unfold parseU16D parseU16
  have h0 := ag_init (ct := ct) (w := w) (brk := brk)
  rw [Ag] at h0
  rw [h0]
  cases hp : parseInit ct w brk with
  | ok pool =>
    have hI := parseInit_sok hct hp
    have hag : ∀ st : StatePool × PronunDAG, (∀ s ∈ st.1, SOK ct w brk s) →
        Ag (parseStepD ct w dict brk st) (parseStep ct w dict brk st) ∨ parseStepD ct w dict brk st = .abort := by
      rintro ⟨pool, acc⟩ h
      cases pool with
      | nil => exact .inl (ag_pure _)
      | cons s pool =>
        by_cases ht : TripS ct w dict s
        · exact .inr (abort_step hct (h s (by simp)) ht)
        · exact .inl (ag_step hct (h s (by simp)) ht)
    rcases loop_cases (I := fun st => ∀ s ∈ st.1, SOK ct w brk s) (fun st st' h hs => parseStep_sok hct h hs) hag
      (s := (pool, DAG.empty)) hI with h | h
    · left
      show Chk.ofLoop _ = _
      rw [h]; rfl
    · right
      show Chk.ofLoop _ = _
      rw [h, ofLoop_up]; rfl
  | throw e => exact .inr rfl
  | ub => exact .inr rfl
  | diverge => exact .inr rfl

theorem trips_of_tripS (hct : ct.Ok) {dict : Option Dict} (hd : Holds dict look) {s : PState} (hs : SOK ct w brk s)
    (hn : Snd ct w brk look s) (h : TripS ct w dict s) : ∃ c, c.pos = s.pos ∧ Trips ct w look brk c := by
  obtain ⟨h1, hex, x, hx, hld, hne⟩ := h
  have hst := hs.stop (by omega)
  obtain ⟨es, hes⟩ := hn.some
  have hdict : dictAt ct w look s.pos s.stop = [] := by
    have := (exceptions_ok hd s hst.le hs.pos []).mp hex
    generalize dictAt ct w look s.pos s.stop = l at this ⊢
    cases this; rfl
  rw [← h1] at hst hdict
  exact ⟨⟨s.pos, s.linked, es⟩, rfl, hes, hst, ⟨hdict, no_abbr hct hx hld⟩, x, hx, hld, hne⟩

theorem tripS_of_trips {dict : Option Dict} (hd : Holds dict look) {s : PState} (hs : SOK ct w brk s)
    {c : Config} (hc : c.pos = s.pos) (h : Trips ct w look brk c) (hlt : s.pos < s.stop) : TripS ct w dict s := by
  obtain ⟨-, hst, hpl, x, hx, hld, hne⟩ := h
  rw [hc] at hst hpl hx
  have hst' := hs.stop hlt
  have he := hst.unique hst'
  refine ⟨he, (exceptions_ok hd s hst'.le hs.pos []).mpr ?_, x, hx, hld, hne⟩
  rw [← he, hpl.1]
  exact .nil

/-- Without such a reading, no assertion fails. -/
theorem parse_run (hct : ct.Ok) {dict : Option Dict} (hd : Holds dict look) (hn : ¬ ∃ c, Trips ct w look brk c) :
    parseU16D ct w dict brk = .run (parseU16 ct w dict brk) := by
  unfold parseU16D parseU16
  have h0 := ag_init (ct := ct) (w := w) (brk := brk)
  rw [Ag] at h0
  rw [h0]
  cases hp : parseInit ct w brk with
  | ok pool =>
    have hag : ∀ st, LInv ct w brk look st → Ag (parseStepD ct w dict brk st) (parseStep ct w dict brk st) := by
      rintro ⟨pool, acc⟩ h
      cases pool with
      | nil => exact ag_pure _
      | cons s pool =>
        refine ag_step hct (h.sok s (by simp)) fun ht => hn ?_
        obtain ⟨c, -, hc⟩ := trips_of_tripS hct hd (h.sok s (by simp)) (h.snd s (by simp)) ht
        exact ⟨c, hc⟩
    have hpres : ∀ st st', LInv ct w brk look st → parseStep ct w dict brk st = .ok (.inl st') → LInv ct w brk look st' := by
      rintro ⟨pool, acc⟩ st' h hs
      cases pool with
      | nil => rw [parseStep] at hs; cases hs
      | cons s pool =>
        rw [parseStep_cons hct] at hs
        by_cases hq : s.pos ≥ w.length
        · rw [if_pos hq] at hs
          cases hs
          exact linv_final hct h hq
        · rw [if_neg hq, bind_eq_ok] at hs
          obtain ⟨ss, hss, hs⟩ := hs
          cases hs
          exact linv_expand hct h (by omega) (expand_expands hct hd (h.sok s (by simp)) (by omega) hss)
    show Chk.ofLoop _ = _
    have hw : whileLoop (chkStep (parseStepD ct w dict brk)) (pool, DAG.empty) =
        up (whileLoop (parseStep ct w dict brk) (pool, DAG.empty)) := by
      have key : ∀ n st, LInv ct w brk look st → iterLoop (chkStep (parseStepD ct w dict brk)) n st ≠ .ok .abort := by
        intro n
        induction n with
        | zero => intro st _ h; cases h
        | succ n ih =>
          intro st hst
          have h := hag st hst
          rw [Ag] at h
          rw [iterLoop, chkStep, h]
          cases hg : parseStep ct w dict brk st with
          | ok r =>
            cases r with
            | inl s' => exact ih s' (hpres st s' hst hg)
            | inr a => intro h; cases h
          | throw e => intro h; cases h
          | ub => intro h; cases h
          | diverge => intro h; cases h
      rcases loop_cases hpres (fun st h => .inl (hag st h)) (parseInit_inv hct hp) with h | h
      · obtain ⟨n, hn', -⟩ := iterLoop_of_whileLoop (by rw [h]; simp)
        exact absurd (hn'.trans h) (key n _ (parseInit_inv hct hp))
      · exact h
    rw [hw, ofLoop_up]; rfl
  | throw e => rfl
  | ub => rfl
  | diverge => rfl

/-- With one, some assertion fails, unless the program fails earlier. -/
theorem parse_abort (hct : ct.Ok) {dict : Option Dict} (hd : Holds dict look) (hr : Met ct w brk look)
    (hb : ∀ b ∈ brk, b ≤ w.length) {c : Config} (hc : Trips ct w look brk c) : parseU16D ct w dict brk = .abort := by
  have hlt : c.pos < w.length := by have := hc.2.1.le; omega
  have hstop : ∀ {s : PState} {ss}, s.stop ≤ s.pos → Matches s c → Expands ct w brk look s ss →
      ∃ t, ss = [{ s with stop := t }] := by
    intro s ss hle hm hex
    have hpos := hm.pos
    cases hex with
    | gap hq _ _ => exact absurd hc.2.1.token (hpos ▸ hq.no _ le_rfl hq.lt)
    | stop _ _ => exact ⟨_, rfl⟩
    | dict hst => have := hst.lt; omega
    | abbr hst => have := hst.lt; omega
    | dot hst => have := hst.lt; omega
    | syl hst => have := hst.lt; omega
  have hterm := parseU16_term (w := w) (brk := brk) hct dict
  rcases parse_cases (w := w) (brk := brk) hct dict with h | h
  · exact h
  exfalso
  unfold parseU16D at h
  have h0 := ag_init (ct := ct) (w := w) (brk := brk)
  rw [Ag] at h0
  obtain ⟨s, hs⟩ := refresh_ok (ct := ct) (s := ⟨0, 0, DAG.empty, false⟩) hb
  have hpool : parseInit ct w brk = .ok (StatePool.add [] s) := by unfold parseInit; rw [hs]; rfl
  rw [h0, hpool] at h
  have h : Chk.ofLoop (whileLoop (chkStep (parseStepD ct w dict brk)) (StatePool.add [] s, DAG.empty)) =
    .run (parseU16 ct w dict brk) := h
  have hw : whileLoop (chkStep (parseStepD ct w dict brk)) (StatePool.add [] s, DAG.empty) ≠ .diverge := by
    intro hw
    rw [hw] at h
    cases hp : parseU16 ct w dict brk with
    | diverge => exact hterm hp
    | ok d => rw [hp] at h; cases h
    | throw e => rw [hp] at h; cases h
    | ub => rw [hp] at h; cases h
  obtain ⟨n, hn, hn'⟩ := iterLoop_of_whileLoop hw
  have hI := parseInit_inv (look := look) hct hpool
  have hP := pending_start hct hlt hstop hc.1 hpool
  have key : iterLoop (chkStep (parseStepD ct w dict brk)) n (StatePool.add [] s, DAG.empty) = .ok .abort := by
    clear h hn hpool hs hw
    generalize hst : (StatePool.add [] s, (DAG.empty : PronunDAG)) = st at *
    have hP : Pending ct w brk look c st.1 := by rw [← hst]; exact hP
    clear hst
    induction n generalizing st with
    | zero => exact absurd rfl hn'
    | succ n ih =>
      obtain ⟨pool, acc⟩ := st
      cases pool with
      | nil => obtain ⟨y, hy, -⟩ := hP; cases hy
      | cons y pool =>
        have hy := hI.sok y (by simp)
        rw [iterLoop, chkStep] at hn' ⊢
        by_cases htr : TripS ct w dict y
        · rw [abort_step hct hy htr]
        · have hag := ag_step (pool := pool) (acc := acc) hct hy htr
          rw [Ag] at hag
          rw [hag, parseStep_cons hct] at hn' ⊢
          by_cases hp : y.pos ≥ w.length
          · rw [if_pos hp] at hn' ⊢
            exact ih _ hn' (linv_final hct hI hp) (pending_final hct hlt hP hp)
          · rw [if_neg hp] at hn' ⊢
            rcases expand_throw hct hd hr hb hy (hI.snd y (by simp)) (by omega) with ⟨ss, hss⟩ | ⟨hthrow, c', hpos', hst'⟩
            · rw [hss] at hn' ⊢
              have hx := expand_expands hct hd hy (by omega) hss
              refine ih _ hn' (linv_expand hct hI (by omega) hx) (pending_step hct (fun hm => ?_) hP hx)
              refine hstop ?_ hm hx
              by_contra hlt'
              exact htr (tripS_of_trips hd hy hm.pos hc (by omega))
            · exfalso
              obtain ⟨hder, hlen, t', x, hst, hpl, hx, hld, hne⟩ := hst'
              by_cases hlt' : y.pos < y.stop
              · refine htr (tripS_of_trips hd hy hpos' ?_ hlt')
                have ht' : t' = c'.pos + 1 := by have := hst.lt; have := hst.le; omega
                rw [ht'] at hst hpl
                exact ⟨hder, hst, hpl, x, hx, hld, hne⟩
              · unfold expand at hthrow
                rw [if_pos (by omega)] at hthrow
                obtain ⟨y', hy'⟩ := refresh_ok (ct := ct) (s := y) hb
                rw [hy'] at hthrow
                cases hthrow
  rw [← hn, key] at h
  cases h

end
end Thpronun
