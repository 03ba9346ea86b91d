import Verif.Spec.Ordinary
import Verif.Lemmas.NotBack

/-! # Which spelled syllables can be respelled -/

namespace Thpronun
open Res Spec DAG

/-! ## The choice of letter and tone mark -/

/-- Sounds and classes that occur together: those of a letter, or a sonorant with the class of the letter before it. -/
def PairOk (snd : InitConsSound) (cls : InitConsClass) : Prop :=
  (∃ c ∈ soundLetters snd, c ∈ classLetters cls) ∨ ((∃ c ∈ soundLetters snd, c ∈ classLetters .LOWS) ∧ cls ≠ .INVALID)

instance (a b) : Decidable (PairOk a b) := by unfold PairOk; infer_instance

/-- What the chosen letter and mark look like. -/
def WayFact (snd : InitConsSound) (dead short : Bool) (mark tone : Tone) (letter text : U16Str) : Prop :=
  (dead = true → tone ≠ .SAMAN) ∧ (mark = .SAMAN → text = []) ∧
  (short = true → (text = [] ↔ tone ∈ unmarkedTones (decide (snd ∈ midSounds)) dead)) ∧
  ∀ s ∈ [SC.RA, SC.LA, SC.WA], ((∃ e ∈ trueClusters, e.2.2 = s ∧ letter.headD 0 ∈ e.1) ↔
    snd ∈ clusterSounds s ∧ ¬ ((snd, s) ∈ lowClusters ∧ tone ∈ highTones dead))

instance (a b c d e f g) : Decidable (WayFact a b c d e f g) := by unfold WayFact; infer_instance

def allSounds : List InitConsSound :=
  [.INVALID, .KA, .KHA, .NGA, .JA, .CHA, .YA, .DA, .TA, .THA, .NA, .BA, .PA, .PHA, .FA, .MA, .RA, .LA, .WA, .SA, .HA, .A]

def allClasses : List InitConsClass := [.INVALID, .HIGH, .MID, .LOWP, .LOWS]

def allMarks : List Tone := [.SAMAN, .EK, .THO, .TRI, .CHATTAWA]

theorem way_all : ∀ snd ∈ allSounds, ∀ cls ∈ allClasses, PairOk snd cls → ∀ dead ∈ [true, false], ∀ short ∈ [true, false],
    ∀ mark ∈ allMarks, WayFact snd dead short mark ((prescribed cls mark dead short).getD mark)
      (chosenWay snd dead short ((prescribed cls mark dead short).getD mark)).2.1
      (chosenWay snd dead short ((prescribed cls mark dead short).getD mark)).2.2.1 := by
  decide +kernel

theorem way_table {snd : InitConsSound} {cls : InitConsClass} (h : PairOk snd cls) (dead short : Bool) {mark : Tone}
    (hm : mark ≠ .INVALID) : WayFact snd dead short mark ((prescribed cls mark dead short).getD mark)
      (chosenWay snd dead short ((prescribed cls mark dead short).getD mark)).2.1
      (chosenWay snd dead short ((prescribed cls mark dead short).getD mark)).2.2.1 :=
  way_all snd (by cases snd <;> decide) cls (by cases cls <;> decide) h dead (by cases dead <;> decide) short
    (by cases short <;> decide) mark (by revert hm; cases mark <;> decide)

/-! ## Tone marks -/

section
variable {ct : CType} {w : U16Str} {t : Nat} {o : Onset} {r : Rime}

/-- A tone mark stands right after the onset or one place later. -/
def MarkForm (ct : CType) (w : U16Str) (o : Onset) (m : Tone) : Prop :=
  m = .SAMAN ∨ ∃ c, (w[o.stop]? = some c ∨ w[o.stop + 1]? = some c) ∧ ct.isTone c = true ∧ (c, m) ∈ marks

theorem markForm0 {m k} (h : MarkAt ct w t o.stop m k) : MarkForm ct w o m := by
  rcases h with ⟨c, h1, h2, h3, -⟩ | ⟨-, rfl, -⟩
  · exact .inr ⟨c, .inl h1.2, h2, h3⟩
  · exact .inl rfl

theorem markForm1 {m k} (h : MarkAt ct w t (o.stop + 1) m k) : MarkForm ct w o m := by
  rcases h with ⟨c, h1, h2, h3, -⟩ | ⟨-, rfl, -⟩
  · exact .inr ⟨c, .inr h1.2, h2, h3⟩
  · exact .inl rfl

theorem open_mark {j v m} {f : EndConsClass} (h : Open ct w t j v f m r) : r.mark = m := by
  obtain ⟨k, -, rfl⟩ := h; rfl

theorem shut_mark {j excl v m} (h : Shut ct w t j excl v m r) : r.mark = m := by
  obtain ⟨k, b, f, -, rfl⟩ := h; rfl

theorem shutX_mark {j excl v m} (h : ShutX ct w t j excl v m r) : r.mark = m := by
  obtain ⟨k, b, f, -, rfl⟩ := h; rfl

theorem signFinal_mark {k : Nat} {v m} (h : SignFinal ct w t k v m r) : r.mark = m := by
  obtain ⟨-, ⟨-, -, h⟩ | ⟨-, -, h⟩ | ⟨-, -, h⟩ | ⟨-, -, -, h⟩⟩ := h
  · exact open_mark h
  · exact shut_mark h
  · exact shut_mark h
  · exact shutX_mark h

theorem mid_mark {sign mid : Nat} {short long : Vowel} {full : Bool}
    (h : MidRime ct w t sign mid short long o.stop full r) : MarkForm ct w o r.mark := by
  obtain ⟨-, m, k, hm, -, h⟩ := h
  have : r.mark = m := by
    rcases h with ⟨-, h⟩ | ⟨-, h | ⟨k', -, h⟩⟩
    · exact open_mark h
    · exact open_mark h
    · split at h
      · exact shutX_mark h
      · exact shut_mark h
  exact this ▸ markForm1 hm

theorem consRime_mark {l : Bool} (h : ConsRime ct w t o l r) : MarkForm ct w o r.mark := by
  rcases h with ⟨-, m, k, hm, h⟩ | ⟨c, v, m, k, -, -, -, hm, h⟩ | ⟨-, -, k, -, h⟩ | ⟨m, k, hm, h⟩
  · have : r.mark = m := by
      rcases h with ⟨-, -, h⟩ | ⟨-, -, h⟩ | ⟨-, -, h⟩ | ⟨-, -, h⟩
      · exact open_mark h
      · exact open_mark h
      · exact shutX_mark h
      · exact shut_mark h
    exact this ▸ markForm1 hm
  · have : r.mark = m := by
      rcases h with ⟨-, -, h⟩ | ⟨-, ⟨-, h⟩ | ⟨-, -, rfl⟩ | ⟨-, -, h⟩⟩
      · exact signFinal_mark h
      · rcases h with rfl | h
        · rfl
        · exact signFinal_mark h
      · rfl
      · rcases h with rfl | h
        · rfl
        · exact signFinal_mark h
    exact this ▸ markForm1 hm
  · exact .inl (shut_mark h)
  · have : r.mark = m := by
      rcases h with ⟨-, h⟩ | ⟨-, h | ⟨k', -, h⟩⟩ | ⟨-, h⟩ | ⟨-, h⟩ | ⟨-, h | ⟨k', -, h⟩⟩ |
        ⟨-, ⟨-, h⟩ | ⟨k', -, -, h | ⟨-, h⟩⟩⟩ | ⟨-, -, -, h⟩ | ⟨v, c, -, -, -, -, rfl | h⟩
      all_goals first | rfl | exact open_mark h | exact shut_mark h | exact shutX_mark h
    exact this ▸ markForm0 hm

theorem eRime_mark (h : ERime ct w t o r) : MarkForm ct w o r.mark := by
  rcases h with ⟨-, -, rfl⟩ | ⟨-, m, k, k', hm, -, h⟩ | h | h | ⟨-, h⟩ | ⟨-, m, k, hm, h⟩
  · exact .inl rfl
  · exact shut_mark h ▸ markForm1 hm
  · exact mid_mark h
  · exact mid_mark h
  · exact .inl (shut_mark h)
  · have : r.mark = m := by
      rcases h with ⟨-, rfl⟩ | ⟨-, ⟨-, h⟩ | ⟨-, h⟩ | ⟨-, h⟩⟩ | ⟨-, -, h⟩ | ⟨-, ⟨-, h⟩ | ⟨-, h⟩⟩ | ⟨-, -, h⟩ |
        ⟨c, -, -, -, -, -, h | ⟨k', -, h⟩⟩
      · rfl
      all_goals first | exact open_mark h | exact shutX_mark h
    exact this ▸ markForm0 hm

theorem leadRime_mark {v : Nat} (h : LeadRime ct w t v o.stop r) : MarkForm ct w o r.mark := by
  obtain ⟨m, k, hm, h⟩ := h
  have : r.mark = m := by
    rcases h with ⟨-, h⟩ | ⟨-, h⟩ | ⟨-, h⟩ | ⟨-, h⟩
    · rcases h with ⟨-, h⟩ | ⟨-, h⟩ | ⟨-, -, h | ⟨k', -, h⟩⟩
      all_goals first | exact open_mark h | exact shut_mark h
    · rcases h with ⟨-, ⟨-, rfl⟩ | ⟨-, k', -, rfl⟩⟩ | ⟨-, ⟨-, rfl | h⟩ | ⟨-, -, rfl⟩ | ⟨-, -, rfl | h⟩⟩
      all_goals first | rfl | exact shutX_mark h
    · rcases h with h | ⟨-, -, -, rfl⟩
      · exact open_mark h
      · rfl
    · rcases h with h | ⟨-, -, -, rfl⟩
      · exact open_mark h
      · rfl
  exact this ▸ markForm0 hm

theorem ruRime_mark {i : Nat} (h : RuRime ct w t i r) : r.mark = .SAMAN := by
  rcases h with ⟨-, rfl⟩ | ⟨-, rfl⟩ | ⟨d, -, -, ⟨-, rfl⟩ | ⟨-, h⟩⟩
  · rfl
  · rfl
  · rfl
  · exact shutX_mark h

theorem wholeAt_mark {i : Nat} (h : WholeAt ct w t i o r) : r.mark = .SAMAN := by
  obtain ⟨c, snd, cls, -, -, h⟩ := h
  rcases h with ⟨-, -, rfl⟩ | ⟨-, -, -, -, -, rfl⟩ | ⟨-, -, -, ⟨-, -, -, rfl⟩ | ⟨-, -, -, rfl⟩ | ⟨-, -, -, rfl⟩⟩ |
    ⟨-, -, -, rfl⟩
  all_goals rfl

theorem spelled_mark {i : Nat} {l : Bool} (h : Spelled ct w t i l o r) : MarkForm ct w o r.mark := by
  obtain ⟨c, hc, ⟨-, ⟨h1, -, h2⟩ | ⟨h, -⟩⟩ | ⟨-, -, -, h⟩ | ⟨-, -, -, h⟩ | ⟨hcc, -, h⟩⟩ := h
  · exact consRime_mark h2
  · exact .inl (wholeAt_mark h)
  · exact eRime_mark h
  · exact leadRime_mark h
  · exact .inl (ruRime_mark h)

theorem MarkForm.ne {m} (h : MarkForm ct w o m) : m ≠ .INVALID := by
  rcases h with rfl | ⟨c, -, -, h⟩
  · decide
  · exact (by decide : ∀ x ∈ marks, x.2 ≠ .INVALID) _ h

/-! ## Onsets -/

/-- What an onset at `i` looks like. -/
structure OnsetForm (ct : CType) (w : U16Str) (i : Nat) (o : Onset) : Prop where
  pair : PairOk o.sound o.cls
  stop : o.stop = i + 1 ∨ o.stop = i + 2
  chars : ∀ m, i ≤ m → m < o.stop → ∃ c, w[m]? = some c ∧ (ct.isCons c = true ∨ c = ch!"ฤ")
  inh : o.inherent ≠ none → o.stop = i + 2 ∧ w[i + 1]? = some ch!"ฤ"
  second : o.second ≠ SC.NONE → ∃ c, w[i]? = some c ∧ Letter ct c o.sound o.cls ∧ o.stop = i + 2 ∧
    ((∃ e ∈ trueClusters, e.2.2 = o.second ∧ c ∈ e.1 ∧ w[i + 1]? = some e.2.1) ∨
     (w[i + 1]? = some ch!"ฤ" ∧ o.second = SC.RA ∧ (c ∈ u!"กตทปคพ" ∨ c ∉ u!"กตทปศสนคพห")))

theorem pair_letter {c snd cls} (h : Letter ct c snd cls) : PairOk snd cls := .inl ⟨c, h.2.1, h.2.2⟩

theorem letter_cls {c snd cls} (h : Letter ct c snd cls) : cls ≠ .INVALID := by
  rintro rfl
  cases h.2.2

theorem ra_low : ∃ c ∈ soundLetters .RA, c ∈ classLetters .LOWS := ⟨ch!"ร", by decide⟩

theorem onset_form {i : Nat} {l : Bool} (h : OnsetAt ct w t i l o) : OnsetForm ct w i o := by
  obtain ⟨c, snd, cls, hc, hl, h⟩ := h
  have h1 : ∀ m, i ≤ m → m < i + 1 → ∃ c, w[m]? = some c ∧ (ct.isCons c = true ∨ c = ch!"ฤ") := by
    intro m hm hm'
    obtain rfl : m = i := by omega
    exact ⟨c, hc, .inl hl.1⟩
  rcases h with rfl | ⟨d, snd2, cls2, hd, hl2, -, h⟩ | ⟨⟨hr, -⟩, h⟩
  · exact ⟨pair_letter hl, .inl rfl, h1, fun h => absurd rfl h, fun h => absurd rfl h⟩
  · have h2 : ∀ m, i ≤ m → m < i + 2 → ∃ c, w[m]? = some c ∧ (ct.isCons c = true ∨ c = ch!"ฤ") := by
      intro m hm hm'
      rcases (by omega : m < i + 1 ∨ m = i + 1) with h | rfl
      · exact h1 m hm h
      · exact ⟨d, hd.2, .inl hl2.1⟩
    rcases h with ⟨cs, s, k1, k2, -, rfl⟩ | ⟨_, _, _, rfl⟩ | ⟨_, k, rfl⟩ | rfl
    · exact ⟨pair_letter hl, .inr rfl, h2, fun h => absurd rfl h,
        fun _ => ⟨c, hc, hl, rfl, .inl ⟨_, k1, rfl, k2, hd.2⟩⟩⟩
    · exact ⟨pair_letter hl, .inr rfl, h2, fun h => absurd rfl h, fun h => absurd rfl h⟩
    · exact ⟨.inr ⟨⟨d, hl2.2.1, k ▸ hl2.2.2⟩, by simp⟩, .inr rfl, h2, fun h => absurd rfl h, fun h => absurd rfl h⟩
    · refine ⟨?_, .inr rfl, h2, fun h => absurd rfl h, fun h => absurd rfl h⟩
      dsimp only
      split
      · rename_i k
        exact .inr ⟨⟨d, hl2.2.1, k ▸ hl2.2.2⟩, letter_cls hl⟩
      · exact pair_letter hl2
  · have h2 : ∀ m, i ≤ m → m < i + 2 → ∃ c, w[m]? = some c ∧ (ct.isCons c = true ∨ c = ch!"ฤ") := by
      intro m hm hm'
      rcases (by omega : m < i + 1 ∨ m = i + 1) with h | rfl
      · exact h1 m hm h
      · exact ⟨_, hr.2, .inr rfl⟩
    have joined : ∀ s v, (s = SC.NONE ∨ s = SC.RA ∧ (c ∈ u!"กตทปคพ" ∨ c ∉ u!"กตทปศสนคพห")) →
        OnsetForm ct w i ⟨i + 2, none, snd, cls, s, some v⟩ := by
      intro s v hs
      refine ⟨pair_letter hl, .inr rfl, h2, fun _ => ⟨rfl, hr.2⟩, fun h => ?_⟩
      obtain ⟨h3, h4⟩ := hs.resolve_left h
      exact ⟨c, hc, hl, rfl, .inr ⟨hr.2, h3, h4⟩⟩
    have apart : ∀ cls' v, cls' ≠ .INVALID →
        OnsetForm ct w i ⟨i + 2, some (openSyl snd cls VW.A), .RA, cls', SC.NONE, some v⟩ := by
      intro cls' v h
      exact ⟨.inr ⟨ra_low, h⟩, .inr rfl, h2, fun _ => ⟨rfl, hr.2⟩, fun h => absurd rfl h⟩
    rcases h with ⟨k, rfl⟩ | ⟨-, rfl | rfl⟩ | ⟨rfl, rfl⟩ | ⟨-, rfl⟩ | ⟨k, -, rfl⟩ | ⟨k, v', hv', ⟨k2, rfl⟩ | rfl⟩
    · refine joined _ _ (.inr ⟨rfl, .inl ?_⟩)
      exact (by decide : ∀ x ∈ u!"กตทป", x ∈ u!"กตทปคพ") c k
    · exact joined _ _ (.inl rfl)
    · exact apart _ _ (letter_cls hl)
    · exact joined _ _ (.inr ⟨rfl, .inr (by decide)⟩)
    · exact apart _ _ (by simp)
    · refine joined _ _ (.inr ⟨rfl, .inl ?_⟩)
      exact (by decide : ∀ x ∈ u!"คพ", x ∈ u!"กตทปคพ") c k
    · refine joined _ _ (.inr ⟨rfl, .inr fun hm => ?_⟩)
      rcases (by decide : ∀ x ∈ u!"กตทปศสนคพห", x ∈ u!"กตทปศสวนคพ" ∨ x = ch!"ห") c hm with h | h
      · exact k h
      · exact k2 h
    · exact apart _ _ (by simp)

/-! ## Rimes -/

/-- The vowels with restrictions on finals or respellings. -/
def picky : List Int := (b!"yztwiIoexcE").map fun (n : Nat) => (n : Int)

/-- What a rime looks like. -/
structure RimeForm (ct : CType) (w : U16Str) (E : Prop) (o : Onset) (r : Rime) : Prop where
  dip : r.final ≠ .NONE → r.vowel ∉ (b!"yztw").map (fun (n : Nat) => (n : Int))
  ii : r.vowel = VW.II → r.final ≠ .KOEY
  iy : r.vowel = VW.I → r.final = .KOEY → o.inherent ≠ none ∧
    (w[o.stop]? = some ch!"ย" ∨ ∃ c, w[o.stop]? = some c ∧ ct.isTone c = true ∧ w[o.stop + 1]? = some ch!"ย")
  oFin : r.vowel = VW.O → r.final ≠ .NONE → r.final ≠ .KOEY ∧ r.final ≠ .KOEW ∧ o.second ≠ SC.WA
  short : r.vowel = VW.E ∨ r.vowel = VW.AU → r.final ≠ .NONE → r.mark = .SAMAN
  ae : r.vowel = VW.AE → r.final ≠ .NONE → r.mark = .SAMAN ∨
    ∃ i c, w[i]? = some c ∧ ct.isTone c = true ∧ w[i + 1]? = some ch!"็"
  ey : r.vowel = VW.EE → r.final = .KOEY → E

/-- The long e before ย after an onset that ends at `j`. -/
def EyForm (ct : CType) (w : U16Str) (j : Nat) : Prop :=
  (∃ i, w[i]? = some ch!"์" ∧ w[i + 1]? = some ch!"ย") ∨
  ∃ k, (k = j ∨ k = j + 1 ∧ ∃ c, w[j]? = some c ∧ ct.isTone c = true) ∧ w[k]? = some ch!"ย" ∧
    ∃ c, w[k + 1]? = some c ∧ ct.isCons c = false ∧ ct.isLdVowel c = false

variable {E : Prop}

theorem rg_none {k b v m} : RimeForm ct w E o ⟨k, b, v, .NONE, m⟩ := by
  refine ⟨fun h => absurd rfl h, fun _ h => ?_, fun _ h => ?_, fun _ h => absurd rfl h, fun _ h => absurd rfl h,
    fun _ h => absurd rfl h, fun _ h => ?_⟩ <;> cases h

theorem rg_safe {k b v f m} (h : v ∉ picky) : RimeForm ct w E o ⟨k, b, v, f, m⟩ := by
  have key : ∀ x : Int, x ∈ picky → v ≠ x := fun x hx he => h (he ▸ hx)
  refine ⟨fun _ hv => ?_, fun hv => ?_, fun hv => ?_, fun hv => ?_, fun hv => ?_, fun hv => ?_, fun hv => ?_⟩
  · exact h ((by decide : ∀ x ∈ (b!"yztw").map (fun (n : Nat) => (n : Int)), x ∈ picky) v hv)
  · exact absurd hv (key _ (by decide))
  · exact absurd hv (key _ (by decide))
  · exact absurd hv (key _ (by decide))
  · rcases hv with hv | hv <;> exact absurd hv (key _ (by decide))
  · exact absurd hv (key _ (by decide))
  · exact absurd hv (key _ (by decide))

theorem rg_open {j v m} {f : EndConsClass} (h : Open ct w t j v f m r) (hv : f = .NONE ∨ v ∉ picky) :
    RimeForm ct w E o r := by
  obtain ⟨k, -, rfl⟩ := h
  rcases hv with rfl | hv
  · exact rg_none
  · exact rg_safe hv

theorem rg_shut {j excl v m} (h : Shut ct w t j excl v m r) (hv : v ∉ picky) : RimeForm ct w E o r := by
  obtain ⟨k, b, f, -, rfl⟩ := h
  exact rg_safe hv

theorem rg_shutX {j excl v m} (h : ShutX ct w t j excl v m r) (hv : v ∉ picky) : RimeForm ct w E o r := by
  obtain ⟨k, b, f, -, rfl⟩ := h
  exact rg_safe hv

/-- The short vowels written with ็. -/
theorem rg_short {k b v f m} (hv : v = VW.E ∨ v = VW.AU ∨ v = VW.AE) (h1 : v ≠ VW.AE → m = .SAMAN)
    (h2 : v = VW.AE → m = .SAMAN ∨ ∃ i c, w[i]? = some c ∧ ct.isTone c = true ∧ w[i + 1]? = some ch!"็") :
    RimeForm ct w E o ⟨k, b, v, f, m⟩ := by
  rcases hv with rfl | rfl | rfl
  · exact ⟨by simp, by simp, by simp, by simp, fun _ _ => h1 (by decide), by simp, by simp⟩
  · exact ⟨by simp, by simp, by simp, by simp, fun _ _ => h1 (by decide), by simp, by simp⟩
  · exact ⟨by simp, by simp, by simp, by simp, by simp, fun _ _ => h2 rfl, by simp⟩

theorem rg_sign {k b m v} {f : EndConsClass} (hv : v = VW.I ∨ v = VW.II ∨ v ∉ picky) (hf : f ≠ .KOEY ∨ v ∉ picky) :
    RimeForm ct w E o ⟨k, b, v, f, m⟩ := by
  by_cases hs : v ∉ picky
  · exact rg_safe hs
  replace hf := hf.resolve_right hs
  replace hv : v = VW.I ∨ v = VW.II := by tauto
  rcases hv with rfl | rfl
  · exact ⟨by simp, by simp, fun _ h => absurd h hf, by simp, by simp, by simp, by simp⟩
  · exact ⟨by simp, fun _ => hf, by simp, by simp, by simp, by simp, by simp⟩

theorem rg_signFinal {k : Nat} {v m} (hv : v = VW.I ∨ v = VW.II ∨ v ∉ picky) (h : SignFinal ct w t k v m r) :
    RimeForm ct w E o r := by
  have excl : ∀ {i c f}, FinalAt ct w t i (if v = VW.I ∨ v = VW.II then u!"ย" else []) c f → f ≠ .KOEY ∨ v ∉ picky := by
    intro i c f h
    by_cases hv' : v = VW.I ∨ v = VW.II
    · rw [if_pos hv'] at h
      exact .inl (final_of_excl h _ (by decide))
    · exact .inr (by tauto)
  obtain ⟨-, ⟨rfl, -, h⟩ | ⟨rfl, -, h⟩ | ⟨-, -, h⟩ | ⟨-, -, -, h⟩⟩ := h
  · exact rg_open h (by decide)
  · exact rg_shut h (by decide)
  · obtain ⟨k, b, f, ⟨c, hc, -⟩, rfl⟩ := h
    exact rg_sign hv (excl hc)
  · obtain ⟨k, b, f, ⟨c, hc, -⟩, rfl⟩ := h
    exact rg_sign hv (excl hc)

theorem rg_signRime {j : Nat} (h : SignRime ct w t j r) : RimeForm ct w E o r := by
  obtain ⟨c, v, m, k, -, -, hv, -, h⟩ := h
  have hv' : v = VW.I ∨ v = VW.II ∨ v ∉ picky :=
    (by decide : ∀ x ∈ signVowels, x.2 = VW.I ∨ x.2 = VW.II ∨ x.2 ∉ picky) _ hv
  rcases h with ⟨-, -, h⟩ | ⟨-, ⟨-, h⟩ | ⟨-, -, rfl⟩ | ⟨-, -, h⟩⟩
  · exact rg_signFinal hv' h
  · rcases h with rfl | h
    · exact rg_none
    · exact rg_signFinal hv' h
  · exact rg_none
  · rcases h with rfl | h
    · exact rg_none
    · exact rg_signFinal hv' h

theorem final_koey {i excl c} (h : FinalAt ct w t i excl c .KOEY) : w[i]? = some ch!"ย" := by
  have h1 := h.2.2.1
  have h2 := h.1.2
  simp only [finalLetters, List.mem_singleton] at h1
  rw [h2, h1]

theorem rg_plain {l} (hin : ∀ v, o.inherent = some v → v = VW.I ∨ v = VW.UE)
    (h : PlainRime ct w t o l o.stop r) : RimeForm ct w E o r := by
  obtain ⟨m, k, hm, ⟨-, h⟩ | ⟨-, h | ⟨k', -, h⟩⟩ | ⟨-, h⟩ | ⟨-, h⟩ | ⟨-, h | ⟨k', -, h⟩⟩ |
    ⟨-, ⟨-, h⟩ | ⟨k', -, -, h | ⟨-, h⟩⟩⟩ | ⟨-, hs, -, h⟩ | ⟨v, c, hv, -, -, -, h⟩⟩ := h
  · exact rg_open h (by decide)
  · exact rg_open h (by decide)
  · exact rg_shutX h (by decide)
  · exact rg_open h (by decide)
  · exact rg_shut h (by decide)
  · exact rg_open h (by decide)
  · exact rg_shut h (by decide)
  · exact rg_open h (by decide)
  · exact rg_open h (by decide)
  · exact rg_shutX h (by decide)
  · obtain ⟨k, b, f, ⟨c, hc, -⟩, rfl⟩ := h
    have h1 := final_of_excl hc .KOEY (by decide)
    have h2 := final_of_excl hc .KOEW (by decide)
    exact ⟨by simp, by simp, by simp, fun _ _ => ⟨h1, h2, hs⟩, by simp, by simp, by simp⟩
  · rcases h with rfl | ⟨k', b, f, ⟨c, hc, -⟩, rfl⟩
    · exact rg_none
    · rcases hin v hv with rfl | rfl
      · refine ⟨by simp, by simp, fun _ hf => ⟨by rw [hv]; simp, ?_⟩, by simp, by simp, by simp, by simp⟩
        dsimp only at hf
        subst hf
        have := final_koey hc
        rcases hm with ⟨x, h1, h2, -, rfl⟩ | ⟨-, -, rfl⟩
        · exact .inr ⟨x, h1.2, h2, this⟩
        · exact .inl this
      · exact rg_safe (by decide)

theorem rg_cons {i : Nat} {l : Bool} (h1 : OnsetAt ct w t i l o) (h : ConsRime ct w t o l r) : RimeForm ct w E o r := by
  rcases h with h | h | h | h
  · obtain ⟨-, m, k, -, ⟨-, -, h⟩ | ⟨-, -, h⟩ | ⟨-, -, h⟩ | ⟨-, -, h⟩⟩ := h
    · exact rg_open h (by decide)
    · exact rg_open h (by decide)
    · exact rg_shutX h (by decide)
    · exact rg_shut h (by decide)
  · exact rg_signRime h
  · obtain ⟨-, -, k, -, k', b, f, -, rfl⟩ := h
    exact rg_short (by decide) (fun _ => rfl) (fun _ => .inl rfl)
  · exact rg_plain (fun v hv => (onset_inherent h1 v hv).2) h

theorem rg_mid {sign mid : Nat} {short long : Vowel} {j : Nat} {full : Bool} (hl : long ∉ picky)
    (h : MidRime ct w t sign mid short long j full r) : RimeForm ct w E o r := by
  obtain ⟨-, m, k, -, -, ⟨-, h⟩ | ⟨-, h | ⟨k', -, h⟩⟩⟩ := h
  · exact rg_open h (.inl rfl)
  · exact rg_open h (.inl rfl)
  · split at h
    · exact rg_shutX h hl
    · exact rg_shut h hl

theorem rg_e (ht : t ≤ w.length) (h : ERime ct w t o r) : RimeForm ct w (EyForm ct w o.stop) o r := by
  rcases h with ⟨-, -, rfl⟩ | ⟨-, m, k, k', -, -, h⟩ | h | h | ⟨hw, h⟩ | ⟨-, m, k, hm, h⟩
  · exact rg_none
  · exact rg_shut h (by decide)
  · exact rg_mid (by decide) h
  · exact rg_mid (by decide) h
  · obtain ⟨k', b, f, -, rfl⟩ := h
    exact rg_short (by decide) (fun _ => rfl) (fun _ => .inl rfl)
  · rcases h with ⟨-, rfl⟩ | ⟨-, ⟨-, h⟩ | ⟨-, h⟩ | ⟨-, h⟩⟩ | ⟨-, -, h⟩ | ⟨-, ⟨-, h⟩ | ⟨-, h⟩⟩ | ⟨-, -, h⟩ |
      ⟨c, hc, -, hy, -, -, h | ⟨k', hk', h⟩⟩
    · exact rg_none
    · exact rg_open h (by decide)
    · exact rg_open h (by decide)
    · exact rg_open h (by decide)
    · exact rg_open h (by decide)
    · exact rg_open h (by decide)
    · exact rg_open h (by decide)
    · exact rg_open h (by decide)
    · exact rg_open h (by decide)
    · obtain ⟨k2, b, f, ⟨x, hx, -⟩, rfl⟩ := h
      refine ⟨by simp, by simp, by simp, by simp, by simp, by simp, fun _ hf => ?_⟩
      dsimp only at hf
      subst hf
      have hyy := final_koey hx
      rcases hk' with ⟨⟨x, -, -, hs⟩, hkk⟩ | ⟨-, hkk⟩
      · rw [hkk] at hyy
        exact .inl ⟨k + 1, hs.2, hyy⟩
      · right
        rw [hkk] at hyy
        refine ⟨k, ?_, hyy, ?_⟩
        · rcases hm with ⟨x, h1, h2, -, rfl⟩ | ⟨-, -, rfl⟩
          · exact .inr ⟨rfl, x, h1.2, h2⟩
          · exact .inl rfl
        · rw [hc.2] at hyy
          cases hyy
          have : ¬ EndOrStart ct w t (k + 1) := fun h => hy ⟨rfl, h⟩
          have hlt : k + 1 < t := by
            by_contra hn
            exact this (.inl (by omega))
          have hlen : k + 1 < w.length := by omega
          refine ⟨w[k + 1], List.getElem?_eq_getElem hlen, ?_, ?_⟩
          · by_contra hn
            exact this (.inr ⟨_, ⟨hlt, List.getElem?_eq_getElem hlen⟩, .inl (by simpa using hn)⟩)
          · by_contra hn
            exact this (.inr ⟨_, ⟨hlt, List.getElem?_eq_getElem hlen⟩, .inr (by simpa using hn)⟩)

theorem rg_lead {v : Nat} (h : LeadRime ct w t v o.stop r) : RimeForm ct w E o r := by
  obtain ⟨m, k, hm, ⟨-, h⟩ | ⟨-, h⟩ | ⟨-, h⟩ | ⟨-, h⟩⟩ := h
  · rcases h with ⟨-, h⟩ | ⟨hw, h⟩ | ⟨-, -, h | ⟨k', -, h⟩⟩
    · exact rg_open h (by decide)
    · obtain ⟨k', b, f, -, rfl⟩ := h
      refine rg_short (by decide) (fun h => absurd rfl h) (fun _ => ?_)
      rcases hm with ⟨x, h1, h2, -, rfl⟩ | ⟨-, rfl, rfl⟩
      · exact .inr ⟨_, x, h1.2, h2, hw.2⟩
      · exact .inl rfl
    · exact rg_open h (by decide)
    · exact rg_shut h (by decide)
  · rcases h with ⟨-, ⟨-, rfl⟩ | ⟨-, k', -, rfl⟩⟩ | ⟨-, ⟨-, rfl | h⟩ | ⟨-, -, rfl⟩ | ⟨-, -, rfl | h⟩⟩
    any_goals exact rg_none
    all_goals exact rg_shutX h (by decide)
  · rcases h with h | ⟨-, -, -, rfl⟩
    · exact rg_open h (by decide)
    · exact rg_safe (by decide)
  · rcases h with h | ⟨-, -, -, rfl⟩
    · exact rg_open h (by decide)
    · exact rg_safe (by decide)

theorem rg_ru {i : Nat} (h : RuRime ct w t i r) : RimeForm ct w E o r := by
  rcases h with ⟨-, rfl⟩ | ⟨-, rfl⟩ | ⟨d, hd, -, ⟨-, rfl⟩ | ⟨-, h⟩⟩
  · exact rg_none
  · exact rg_none
  · exact rg_none
  · obtain ⟨k, b, f, ⟨c, hc, -⟩, rfl⟩ := h
    split
    · rename_i hdm
      refine ⟨by simp, by simp, fun _ hf => ?_, by simp, by simp, by simp, by simp⟩
      dsimp only at hf
      subst hf
      have := final_koey hc
      rw [hd.2] at this
      cases this
      simp at hdm
    · exact rg_safe (by decide)

/-- What a spelled syllable looks like. -/
theorem spelled_form (ht : t ≤ w.length) {i : Nat} {l : Bool} (h : Spelled ct w t i l o r) :
    ∃ E, RimeForm ct w E o r ∧ PairOk o.sound o.cls ∧
    (E → w[i]? = some ch!"เ" ∧ OnsetForm ct w (i + 1) o ∧ EyForm ct w o.stop) ∧
    (o.second ≠ SC.NONE ∨ r.final ≠ .NONE ∧ o.inherent ≠ none → ∃ j, OnsetForm ct w j o) := by
  obtain ⟨c, hc, ⟨-, ⟨h1, -, h2⟩ | ⟨h, -⟩⟩ | ⟨rfl, -, h1, h⟩ | ⟨-, -, h1, h⟩ | ⟨hcc, rfl, h⟩⟩ := h
  · exact ⟨False, rg_cons h1 h2, (onset_form h1).pair, fun h => h.elim, fun _ => ⟨i, onset_form h1⟩⟩
  · obtain ⟨c, snd, cls, -, hl, h⟩ := h
    refine ⟨False, ?_, ?_, fun h => h.elim, ?_⟩
    · rcases h with ⟨-, -, rfl⟩ | ⟨-, -, -, -, -, rfl⟩ | ⟨-, -, -, ⟨-, -, -, rfl⟩ | ⟨-, -, -, rfl⟩ | ⟨-, -, -, rfl⟩⟩ |
        ⟨-, -, -, rfl⟩
      all_goals exact rg_none
    · have hp := pair_letter hl
      have hr : PairOk .RA .LOWS := by decide
      rcases h with ⟨-, rfl, -⟩ | ⟨-, -, -, -, rfl, -⟩ | ⟨-, -, -, ⟨-, -, rfl, -⟩ | ⟨-, -, rfl, -⟩ | ⟨-, -, rfl, -⟩⟩ |
        ⟨-, -, rfl, -⟩
      all_goals first | exact hp | exact hr
    · rcases h with ⟨-, rfl, rfl⟩ | ⟨-, -, -, -, rfl, rfl⟩ | ⟨-, -, -, ⟨-, -, rfl, rfl⟩ | ⟨-, -, rfl, rfl⟩ | ⟨-, -, rfl, rfl⟩⟩ |
        ⟨-, -, rfl, rfl⟩
      all_goals
        rintro (h | ⟨h, -⟩)
        · exact absurd rfl h
        · exact absurd rfl h
  · exact ⟨_, rg_e ht h, (onset_form h1).pair, fun he => ⟨hc, onset_form h1, he⟩, fun _ => ⟨i + 1, onset_form h1⟩⟩
  · exact ⟨False, rg_lead h, (onset_form h1).pair, fun h => h.elim, fun _ => ⟨i + 1, onset_form h1⟩⟩
  · refine ⟨False, rg_ru h, ?_, fun h => h.elim, ?_⟩
    · dsimp only
      split <;> decide
    · rintro (h | ⟨-, h⟩) <;> exact absurd rfl h

theorem spelledShort_eq (h : RimeForm ct w E o r) : spelledShort (spoken o r) = decide (r.vowel ∈ shortVowels) := by
  unfold spelledShort
  have h1 : isShort (spoken o r).vowel = decide (r.vowel ∈ shortVowels) := rfl
  rw [h1]
  by_cases hf : r.final = .NONE
  · have : (spoken o r).eCons = .NONE := hf
    simp [this]
  · have hv := h.dip hf
    have : (spoken o r).vowel ∉ (b!"yzw").map (fun (n : Nat) => (n : Int)) := fun hm =>
      hv ((by decide : ∀ x ∈ (b!"yzw").map (fun (n : Nat) => (n : Int)), x ∈ (b!"yztw").map (fun (n : Nat) => (n : Int))) _ hm)
    rw [decide_eq_false this]
    simp

theorem spelledDead_eq (h : RimeForm ct w E o r) : spelledDead (spoken o r) = decide (Dead r.vowel r.final) := by
  unfold spelledDead
  rw [spelledShort_eq h]
  have h1 : (spoken o r).eCons = r.final := rfl
  rw [h1]
  unfold Dead
  by_cases hv : r.vowel ∈ shortVowels <;> cases r.final <;> simp [isStop, hv]

theorem hasSpelling_iff (h : RimeForm ct w E o r) (marked : Bool) (hm : r.mark = .SAMAN → marked = false) :
    HasSpelling r.vowel r.final marked ↔ ¬ (r.final = .KOEY ∧ (r.vowel = VW.EE ∨ r.vowel = VW.I)) ∧
      ¬ (r.vowel = VW.AE ∧ r.final ≠ .NONE ∧ marked = true) := by
  unfold HasSpelling
  by_cases hf : r.final = .NONE
  · simp [hf]
  · have h1 := h.dip hf
    have h2 := h.ii
    have h3 := fun hv => h.oFin hv hf
    have h4 := fun hv => h.short hv hf
    simp only [hf, false_or, h1, not_false_eq_true, true_and]
    constructor
    · rintro ⟨a, b, c⟩
      refine ⟨fun ⟨d, e⟩ => a ⟨d, ?_⟩, fun ⟨d, e⟩ => c ⟨e.2, ?_⟩⟩
      · rcases e with e | e <;> rw [e] <;> decide
      · rw [d]; decide
    · rintro ⟨a, b⟩
      refine ⟨fun ⟨d, e⟩ => ?_, fun ⟨d, e⟩ => (h3 e).2.1 d, fun ⟨d, e⟩ => ?_⟩
      · have : r.vowel = VW.I ∨ r.vowel = VW.II ∨ r.vowel = VW.EE ∨ r.vowel = VW.O :=
          (by decide : ∀ x ∈ (b!"iIEo").map (fun (n : Nat) => (n : Int)), x = VW.I ∨ x = VW.II ∨ x = VW.EE ∨ x = VW.O) _ e
        rcases this with e | e | e | e
        · exact a ⟨d, .inr e⟩
        · exact h2 e d
        · exact a ⟨d, .inl e⟩
        · exact (h3 e).1 d
      · have : r.vowel = VW.E ∨ r.vowel = VW.AE ∨ r.vowel = VW.AU :=
          (by decide : ∀ x ∈ (b!"exc").map (fun (n : Nat) => (n : Int)), x = VW.E ∨ x = VW.AE ∨ x = VW.AU) _ e
        rcases this with e | e | e
        · rw [hm (h4 (.inl e))] at d; cases d
        · exact b ⟨e, hf, d⟩
        · rw [hm (h4 (.inr e))] at d; cases d

theorem second_mem {j : Nat} (h : OnsetForm ct w j o) (hs : o.second ≠ SC.NONE) : o.second ∈ [SC.RA, SC.LA, SC.WA] := by
  obtain ⟨c, -, -, -, ⟨e, he, h1, -⟩ | ⟨-, h1, -⟩⟩ := h.second hs
  · rw [← h1]
    exact (by decide : ∀ e ∈ trueClusters, e.2.2 ∈ [SC.RA, SC.LA, SC.WA]) e he
  · rw [h1]; decide

theorem hasCluster_iff (hr : RimeForm ct w E o r) (hs : o.second ≠ SC.NONE → o.second ∈ [SC.RA, SC.LA, SC.WA]) (c : Nat) (Q : Prop)
    (h : ∀ s ∈ [SC.RA, SC.LA, SC.WA], ((∃ e ∈ trueClusters, e.2.2 = s ∧ c ∈ e.1) ↔
      o.sound ∈ clusterSounds s ∧ ¬ ((o.sound, s) ∈ lowClusters ∧ Q))) :
    HasCluster (spoken o r) c ↔ ¬ (o.second ≠ SC.NONE ∧ (o.sound ∉ clusterSounds o.second ∨
      ((o.sound, o.second) ∈ lowClusters ∧ Q))) := by
  unfold HasCluster
  have hs2 : (spoken o r).iCons2 = o.second := rfl
  have hv : (spoken o r).vowel = r.vowel := rfl
  have he : (spoken o r).eCons = r.final := rfl
  rw [hs2, hv, he]
  by_cases hs' : o.second = SC.NONE
  · simp [hs']
  · have hwa : ¬ (o.second = SC.WA ∧ r.vowel = VW.O ∧ r.final ≠ .NONE) := fun ⟨a, b, c⟩ => (hr.oFin b c).2.2 a
    rw [h _ (hs hs')]
    generalize (o.sound ∈ clusterSounds o.second) = A
    generalize ((o.sound, o.second) ∈ lowClusters) = B
    tauto

theorem respell_core {snd : InitConsSound} {dead short : Bool} {mark tone : Tone} {letter text : U16Str}
    (hw : WayFact snd dead short mark tone letter text) (hr : RimeForm ct w E o r) (hsnd : snd = o.sound) (hmark : mark = r.mark)
    (hshort : short = decide (r.vowel ∈ shortVowels))
    (hs : o.second ≠ SC.NONE → o.second ∈ [SC.RA, SC.LA, SC.WA]) :
    (¬ (dead = true ∧ tone = .SAMAN) ∧ HasSpelling r.vowel r.final (decide (text ≠ [])) ∧
      HasCluster (spoken o r) (letter.headD 0)) ↔
    ¬ ((r.final = .KOEY ∧ (r.vowel = VW.EE ∨ r.vowel = VW.I)) ∨
      (r.vowel = VW.AE ∧ r.final ≠ .NONE ∧ tone ∉ unmarkedTones (decide (o.sound ∈ midSounds)) dead) ∨
      (o.second ≠ SC.NONE ∧ (o.sound ∉ clusterSounds o.second ∨
        ((o.sound, o.second) ∈ lowClusters ∧ tone ∈ highTones dead)))) := by
  subst hsnd hmark
  obtain ⟨w1, w2, w3, w4⟩ := hw
  rw [hasSpelling_iff hr _ (fun hm => by rw [w2 hm]; simp), hasCluster_iff hr hs _ _ w4]
  have key : r.vowel = VW.AE → (text = [] ↔ tone ∈ unmarkedTones (decide (o.sound ∈ midSounds)) dead) := fun h =>
    w3 (by rw [hshort, h]; decide)
  constructor
  · rintro ⟨-, ⟨a, b⟩, c⟩ (h | ⟨h1, h2, h3⟩ | h)
    · exact a h
    · exact b ⟨h1, h2, decide_eq_true fun hm => h3 ((key h1).mp hm)⟩
    · exact c h
  · intro h
    exact ⟨fun ⟨a, b⟩ => w1 a b, ⟨fun h' => h (.inl h'), fun ⟨a, b, c⟩ => h (.inr (.inl ⟨a, b, fun hm =>
      of_decide_eq_true c ((key a).mpr hm)⟩))⟩, fun h' => h (.inr (.inr h'))⟩

/-- A spelled syllable can be respelled if and only if it is regular. -/
theorem respellable_iff (ht : t ≤ w.length) {i : Nat} {l : Bool} (h : Spelled ct w t i l o r) :
    Respellable (spoken o r) ↔ ¬ Irregular o r := by
  obtain ⟨E, hr, hp, -, hsec⟩ := spelled_form ht h
  have hw := way_table hp (decide (Dead r.vowel r.final)) (decide (r.vowel ∈ shortVowels)) (spelled_mark h).ne
  have := respell_core hw hr rfl rfl rfl (fun hs => by
    obtain ⟨j, hj⟩ := hsec (.inl hs)
    exact second_mem hj hs)
  unfold Respellable
  dsimp only
  rw [spelledDead_eq hr, spelledShort_eq hr]
  exact this

theorem cluster_sounds : ∀ e ∈ trueClusters, ∀ c ∈ e.1, ∀ snd ∈ allSounds, c ∈ soundLetters snd →
    snd ∈ clusterSounds e.2.2 := by
  decide +kernel

/-- The letters of the clusters written with low letters. -/
theorem cluster_letters : ∀ e ∈ trueClusters, ∀ c ∈ e.1, ∀ snd ∈ allSounds, c ∈ soundLetters snd → (snd, e.2.2) ∈ lowClusters →
    (c, e.2.1) ∈ [(ch!"ท", ch!"ร"), (ch!"พ", ch!"ร"), (ch!"ฟ", ch!"ร"), (ch!"ฟ", ch!"ล")] := by
  decide +kernel

theorem ru_sounds : ∀ c ∈ u!"กตทปคพ", ∀ snd ∈ allSounds, c ∈ soundLetters snd →
    snd ∈ clusterSounds SC.RA ∧ ((snd, SC.RA) ∈ lowClusters → c = ch!"ท" ∨ c = ch!"พ") := by
  decide +kernel

theorem low_letters : ∀ c ∈ u!"ทพฟ", ∀ cls ∈ allClasses, c ∈ classLetters cls → cls = .LOWP := by
  decide +kernel

theorem low_high : ∀ dead ∈ [true, false], ∀ short ∈ [true, false], ∀ mark ∈ allMarks,
    (prescribed .LOWP mark dead short).getD mark ∈ highTones dead → mark = .CHATTAWA := by
  decide +kernel

/-- An ordinary text has only regular syllables. -/
theorem ordinary_regular (ht : t ≤ w.length) (hw : Ordinary ct w) {i : Nat} {l : Bool} (h : Spelled ct w t i l o r) :
    ¬ Irregular o r := by
  obtain ⟨E, hr, hp, hE, hsec⟩ := spelled_form ht h
  have hmk := spelled_mark h
  have way := way_table hp (decide (Dead r.vowel r.final)) (decide (r.vowel ∈ shortVowels)) hmk.ne
  rintro (⟨hf, hv | hv⟩ | ⟨hv, hf, htone⟩ | ⟨hs, hcl⟩)
  · obtain ⟨he, ho, hey⟩ := hE (hr.ey hv hf)
    rcases hey with ⟨j, h1, h2⟩ | ⟨k, hk, hy, c, hc, h1, h2⟩
    · exact hw.silentY j h1 h2
    · have hst := ho.stop
      have := hw.ey i k he (by omega) hy (fun m hm hm' => ?_) c hc
      · rw [h1, h2] at this
        rcases this with h | h <;> cases h
      · rcases (by omega : m < o.stop ∨ m = o.stop) with h | rfl
        · obtain ⟨x, hx, hx'⟩ := ho.chars m (by omega) h
          exact ⟨x, hx, by tauto⟩
        · rcases hk with rfl | ⟨-, x, hx, hx'⟩
          · omega
          · exact ⟨x, hx, .inr (.inr hx')⟩
  · obtain ⟨hin, hy⟩ := hr.iy hv hf
    obtain ⟨j, ho⟩ := hsec (.inr ⟨by rw [hf]; decide, hin⟩)
    obtain ⟨h1, h2⟩ := ho.inh hin
    have := hw.ruY (j + 1) h2
    rw [h1] at hy
    rcases hy with hy | ⟨c, hc, hc', hy⟩
    · exact this.1 hy
    · exact this.2 c hc hc' hy
  · rcases hr.ae hv hf with hm | ⟨j, c, h1, h2, h3⟩
    · have h2 := way.2.1 hm
      exact htone ((way.2.2.1 (by rw [hv]; decide)).mp h2)
    · exact hw.taikhu j c h1 h2 h3
  · obtain ⟨j, ho⟩ := hsec (.inl hs)
    obtain ⟨c, hc, hl, hst, hcase⟩ := ho.second hs
    have hsnd : o.sound ∈ allSounds := by cases o.sound <;> decide
    have hcls : o.cls ∈ allClasses := by cases o.cls <;> decide
    have high : c ∈ u!"ทพฟ" → (spoken o r).tone ∈ highTones (decide (Dead r.vowel r.final)) →
        w[j + 2]? = some ch!"๋" ∨ w[j + 3]? = some ch!"๋" := by
      intro hc' htn
      have hlow := low_letters c hc' o.cls hcls hl.2.2
      have htn' : (prescribed .LOWP r.mark (decide (Dead r.vowel r.final)) (decide (r.vowel ∈ shortVowels))).getD r.mark ∈
          highTones (decide (Dead r.vowel r.final)) := hlow ▸ htn
      have hbool : ∀ b : Bool, b ∈ [true, false] := by decide
      have hmm : r.mark ∈ allMarks := by
        have := hmk.ne
        revert this
        cases r.mark <;> decide
      have hm := low_high _ (hbool _) _ (hbool _) _ hmm htn'
      rw [hm] at hmk
      rcases hmk with h | ⟨x, hx, -, hx'⟩
      · cases h
      · have : x = ch!"๋" := (by decide : ∀ y ∈ marks, y.2 = .CHATTAWA → y.1 = ch!"๋") _ hx' rfl
        subst this
        rw [hst] at hx
        exact hx
    rcases hcase with ⟨e, he, hes, hce, hd⟩ | ⟨hd, hes, hru⟩
    · rw [← hes] at hcl
      rcases hcl with hcl | ⟨hcl, htn⟩
      · exact hcl (cluster_sounds e he c hce o.sound hsnd hl.2.1)
      · have hmem := cluster_letters e he c hce o.sound hsnd hl.2.1 hcl
        have hno := hw.chattawa j c e.2.1 hc hd (by
          simp only [List.mem_cons] at hmem ⊢
          tauto)
        have h3 : c ∈ u!"ทพฟ" := (by decide : ∀ x ∈ [(ch!"ท", ch!"ร"), (ch!"พ", ch!"ร"), (ch!"ฟ", ch!"ร"), (ch!"ฟ", ch!"ล")],
          x.1 ∈ u!"ทพฟ") _ hmem
        rcases high h3 htn with h | h
        · exact hno.1 h
        · exact hno.2 h
    · have hall := hw.ru j c hc hd hl.1
      have hru' : c ∈ u!"กตทปคพ" := by
        rcases hru with h | h
        · exact h
        · exact absurd ((by decide : ∀ x ∈ u!"กคตทนปพศสห", x ∈ u!"กตทปศสนคพห") c hall) h
      rw [hes] at hcl
      obtain ⟨h1, h2⟩ := ru_sounds c hru' o.sound hsnd hl.2.1
      rcases hcl with hcl | ⟨hcl, htn⟩
      · exact hcl h1
      · have hc2 := h2 hcl
        have hno := hw.chattawa j c _ hc hd (by rcases hc2 with rfl | rfl <;> decide)
        rcases high (by rcases hc2 with rfl | rfl <;> decide) htn with h | h
        · exact hno.1 h
        · exact hno.2 h

end

end Thpronun

/-! ## Whole words -/

namespace Thpronun
open Res Spec DAG

variable {ct : CType} {w : U16Str} {look : List Nat → Option Str} {brk : List Int}

/-- Being respellable does not depend on where the syllable ends. -/
theorem respellable_congr {a b : Syl} (hl : a.literal = []) (h : ceq a b = true) : Respellable a ↔ Respellable b := by
  obtain ⟨h1, h2⟩ := (Syl.eq_iff _ _).mp h
  obtain ⟨h2, h3, h4, h5, h6⟩ := h2 (by simp [Syl.isLiteral, hl])
  have : a = { b with endPos := a.endPos } := by
    cases a; cases b
    simp_all
  rw [this]
  exact Iff.rfl

theorem respellable_end (s : Syl) (e : Int) : Respellable { s with endPos := e } ↔ Respellable s := Iff.rfl

/-- Open syllables and letter names can be respelled. -/
theorem openSyl_respellable : ∀ snd ∈ allSounds, ∀ cls ∈ allClasses, PairOk snd cls →
    Respellable (openSyl snd cls VW.A) ∧ Respellable (openSyl snd cls VW.AUU) ∧
    Respellable ⟨snd, SC.NONE, VW.AUU, .NONE, if cls = .HIGH then .CHATTAWA else .SAMAN, [], -1⟩ := by
  decide +kernel

theorem mem_allSounds (s : InitConsSound) : s ∈ allSounds := by cases s <;> decide

theorem mem_allClasses (s : InitConsClass) : s ∈ allClasses := by cases s <;> decide

theorem pre_respellable {t i : Nat} {l : Bool} {o : Onset} {r : Rime} (h : Spelled ct w t i l o r) {x : Syl}
    (hx : o.pre = some x) : Respellable x := by
  have key : ∀ {c snd cls}, Letter ct c snd cls → Respellable (openSyl snd cls VW.A) ∧ Respellable (openSyl snd cls VW.AUU) := by
    intro c snd cls hl
    obtain ⟨h1, h2, -⟩ := openSyl_respellable snd (mem_allSounds _) cls (mem_allClasses _) (pair_letter hl)
    exact ⟨h1, h2⟩
  have onset : ∀ {i}, OnsetAt ct w t i l o → Respellable x := by
    intro i h
    obtain ⟨c, snd, cls, -, hl, h⟩ := h
    have hk := (key hl).1
    rcases h with rfl | ⟨d, snd2, cls2, -, -, -, h⟩ | ⟨-, h⟩
    · cases hx
    · rcases h with ⟨_, _, _, _, _, rfl⟩ | ⟨_, _, _, rfl⟩ | ⟨_, _, rfl⟩ | rfl <;> cases hx
      exact hk
    · rcases h with ⟨-, rfl⟩ | ⟨-, rfl | rfl⟩ | ⟨-, rfl⟩ | ⟨-, rfl⟩ | ⟨-, -, rfl⟩ | ⟨-, v', hv', ⟨-, rfl⟩ | rfl⟩ <;>
        cases hx <;> exact hk
  obtain ⟨c, hc, ⟨-, ⟨h1, -⟩ | ⟨h, -⟩⟩ | ⟨-, -, h, -⟩ | ⟨-, -, h, -⟩ | ⟨-, rfl, -⟩⟩ := h
  · exact onset h1
  · obtain ⟨c, snd, cls, -, hl, h⟩ := h
    rcases h with ⟨-, rfl, -⟩ | ⟨-, -, -, -, rfl, -⟩ | ⟨-, -, -, ⟨-, -, rfl, -⟩ | ⟨-, -, rfl, -⟩ | ⟨-, -, rfl, -⟩⟩ | ⟨-, -, rfl, -⟩ <;>
      cases hx
    all_goals first | exact (key hl).1 | exact (key hl).2
  · exact onset h
  · exact onset h
  · cases hx

theorem names_respellable {c : U16} {q : Int} {s : Syl} (h : IsLetterName c q s) : Respellable s := by
  obtain ⟨snd, cls, h1, h2, rfl⟩ := h
  exact (openSyl_respellable snd (mem_allSounds _) cls (mem_allClasses _) (.inl ⟨c, h1, h2⟩)).2.2

/-- A dictionary whose readings of words in the text can be respelled. -/
def RespellLook (w : U16Str) (look : List Nat → Option Str) : Prop :=
  ∀ q m data strs, look (piece w q m) = some data → DataIs data strs → ∀ str ∈ strs, ∀ s ∈ str, Respellable s

theorem wordEdges_vals {q : Nat} {n : Int} {str : SylString} {e : Entry Syl} (h : e ∈ wordEdges q n str) :
    ∃ s ∈ str, e.val = { s with endPos := movedEnd q s.endPos } := by
  induction str generalizing n with
  | nil => cases h
  | cons s ss ih =>
    rw [wordEdges] at h
    rcases List.mem_cons.mp h with rfl | h
    · exact ⟨s, by simp, rfl⟩
    · obtain ⟨s', h1, h2⟩ := ih h
      exact ⟨s', List.mem_cons_of_mem _ h1, h2⟩

/-- All syllables of the partial readings of an ordinary text can be respelled. -/
theorem deriv_respellable (hw : Ordinary ct w) (hl : RespellLook w look) {c : Config} (h : RuleDeriv ct w look brk c) :
    ∀ e ∈ c.edges, e.val.literal ≠ [] ∨ Respellable e.val := by
  induction h with
  | refl => intro e he; cases he
  | tail h0 hs ih =>
    have app : ∀ {es new : List (Entry Syl)}, (∀ e ∈ es, e.val.literal ≠ [] ∨ Respellable e.val) →
        (∀ e ∈ new, e.val.literal ≠ [] ∨ Respellable e.val) → ∀ e ∈ es ++ new, e.val.literal ≠ [] ∨ Respellable e.val := by
      intro es new h1 h2 e he
      rcases List.mem_append.mp he with h | h
      · exact h1 e h
      · exact h2 e h
    cases hs with
    | @other p l es q ho =>
      refine app ih fun e he => .inl ?_
      rw [List.mem_singleton.mp he]
      show piece w p q ≠ []
      intro hn
      have : (piece w p q).length = 0 := by rw [hn]; rfl
      simp only [piece, List.length_take, List.length_drop] at this
      have := ho.1
      have := ho.2.1
      omega
    | word hst hwd hdata hstr =>
      refine app ih fun e he => .inr ?_
      obtain ⟨s, h1, h2⟩ := wordEdges_vals he
      rw [h2, respellable_end]
      exact hl _ _ _ _ hwd.2.2.1 hdata _ hstr s h1
    | abbr hst hno ha hnames =>
      refine app ih fun e he => ?_
      rcases hnames with ⟨-, rfl⟩ | ⟨-, cs, -, hlen, hn⟩
      · left
        rw [List.mem_singleton.mp he]
        show u!"." ≠ []
        decide
      · right
        obtain ⟨i, hi, rfl⟩ := List.getElem_of_mem he
        have hi' : i < cs.length := hlen ▸ hi
        exact names_respellable (hn i _ _ (List.getElem?_eq_getElem hi') (List.getElem?_eq_getElem hi)).2.2
    | syl hst hno hna hsp =>
      refine app ih fun e he => .inr ?_
      have hmain := (respellable_iff hst.2.1 hsp).mpr (ordinary_regular hst.2.1 hw hsp)
      unfold spelledEdges at he
      split at he
      · rename_i pre hpre
        rcases List.mem_cons.mp he with rfl | he
        · exact (respellable_end _ _).mpr (pre_respellable hsp hpre)
        · rw [List.mem_singleton.mp he]; exact hmain
      · rw [List.mem_singleton.mp he]; exact hmain
    | dot hst hno hna hdot =>
      intro e he
      obtain ⟨e0, h1, rfl⟩ := List.mem_map.mp he
      have := ih e0 h1
      unfold stretch
      split
      · exact this
      · exact this

/-! ## Concrete texts -/

/-- `Ordinary` in a form that can be decided. -/
def ordinaryB (ct : CType) (w : U16Str) : Bool :=
  let at_ := fun i => (w[i]?).getD 0
  (List.range w.length).all fun i =>
    (!(decide (at_ (i + 1) = ch!"ฤ") && ct.isCons (at_ i)) || decide (at_ i ∈ u!"กคตทนปพศสห")) &&
    (!decide (at_ i = ch!"ฤ") || (decide (at_ (i + 1) ≠ ch!"ย") && (!ct.isTone (at_ (i + 1)) || decide (at_ (i + 2) ≠ ch!"ย")))) &&
    (!decide ((at_ i, at_ (i + 1)) ∈ [(ch!"ท", ch!"ร"), (ch!"พ", ch!"ร"), (ch!"ฟ", ch!"ร"), (ch!"ฟ", ch!"ล"), (ch!"ท", ch!"ฤ"), (ch!"พ", ch!"ฤ")])
      || (decide (at_ (i + 2) ≠ ch!"๋") && decide (at_ (i + 3) ≠ ch!"๋"))) &&
    (!ct.isTone (at_ i) || decide (at_ (i + 1) ≠ ch!"็")) &&
    (!decide (at_ i = ch!"์") || decide (at_ (i + 1) ≠ ch!"ย")) &&
    (!decide (at_ i = ch!"เ") || (List.range w.length).all fun k =>
      !(decide (i + 2 ≤ k) && decide (at_ k = ch!"ย") && ((List.range k).all fun m => decide (m ≤ i) ||
        ct.isCons (at_ m) || decide (at_ m = ch!"ฤ") || ct.isTone (at_ m))) ||
      decide (k + 1 = w.length) || ct.isCons (at_ (k + 1)) || ct.isLdVowel (at_ (k + 1)))

theorem ordinary_of (h : ordinaryB ct w = true) : Ordinary ct w := by
  have lt : ∀ {i c : Nat}, w[i]? = some c → i < w.length := fun h => (List.getElem?_eq_some_iff.mp h).1
  have get : ∀ {i c : Nat}, w[i]? = some c → (w[i]?).getD 0 = c := fun h => by rw [h]; rfl
  have all := fun i (hi : i < w.length) => List.all_eq_true.mp h i (List.mem_range.mpr hi)
  simp only [Bool.and_eq_true, Bool.or_eq_true, Bool.not_eq_true', decide_eq_true_eq, decide_eq_false_iff_not,
    Bool.and_eq_false_iff, Bool.not_eq_true] at all
  constructor
  · intro i c h1 h2 h3
    have := (all i (lt h1)).1.1.1.1.1
    rw [get h1, get h2, h3] at this
    simpa using this
  · intro i h1
    have := (all i (lt h1)).1.1.1.1.2
    rw [get h1] at this
    have := this.resolve_left (by simp)
    refine ⟨fun h2 => this.1 (get h2), fun c h2 h3 h4 => ?_⟩
    have := this.2
    rw [get h2, h3, get h4] at this
    simp at this
  · intro i c d h1 h2 h3
    have := (all i (lt h1)).1.1.1.2
    rw [get h1, get h2] at this
    have := this.resolve_left (fun h => h h3)
    exact ⟨fun h => this.1 (get h), fun h => this.2 (get h)⟩
  · intro i c h1 h2 h3
    have := (all i (lt h1)).1.1.2
    rw [get h1, h2, get h3] at this
    simp at this
  · intro i h1 h2
    have := (all i (lt h1)).1.2
    rw [get h1, get h2] at this
    simp at this
  · intro i k h1 h2 h3 h4 c h5
    have := (all i (lt h1)).2
    rw [get h1] at this
    have := List.all_eq_true.mp (this.resolve_left (by simp)) k (List.mem_range.mpr (lt h3))
    simp only [Bool.or_eq_true, decide_eq_true_eq, Bool.not_eq_true', Bool.and_eq_false_iff, decide_eq_false_iff_not] at this
    rw [get h3, get h5] at this
    rcases this with ((h | h) | h) | h
    · exfalso
      rcases h with (h | h) | h
      · exact h h2
      · exact h rfl
      · have hall : ((List.range k).all fun m => decide (m ≤ i) || ct.isCons ((w[m]?).getD 0) ||
            decide ((w[m]?).getD 0 = ch!"ฤ") || ct.isTone ((w[m]?).getD 0)) = true := by
          rw [List.all_eq_true]
          intro m hm
          by_cases hmi : m ≤ i
          · simp [hmi]
          · obtain ⟨x, hx, hx'⟩ := h4 m (by omega) (List.mem_range.mp hm)
            rw [get hx]
            rcases hx' with hx' | hx' | hx' <;> simp [hx']
        rw [hall] at h
        cases h
    · have := lt h5
      omega
    · exact .inl h
    · exact .inr h

end Thpronun
