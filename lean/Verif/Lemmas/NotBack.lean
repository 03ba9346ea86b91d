import Verif.Lemmas.ReadBack
import Verif.Lemmas.Listed

/-! # Which respellings cannot be read back -/

namespace Thpronun
open Res Spec DAG

/-! ## What every rime satisfies -/

/-- The vowels with restrictions on finals. -/
def fussy : List Int := (b!"yztwiIoexc").map fun (n : Nat) => (n : Int)

/-- Restrictions on vowel and final of a written syllable. -/
def RimeFacts (w : U16Str) (o : Onset) (r : Rime) : Prop :=
  r.final ≠ .NONE → r.vowel ∉ (b!"yztw").map (fun (n : Nat) => (n : Int)) ∧
    (r.final = .KOEY → r.vowel = VW.I ∨ r.vowel = VW.II → ch!"ฤ" ∈ w ∨ ch!"ฦ" ∈ w) ∧
    (r.vowel = VW.O → r.final ≠ .KOEY ∧ r.final ≠ .KOEW ∧ o.second ≠ SC.WA) ∧
    (r.vowel ∈ (b!"exc").map (fun (n : Nat) => (n : Int)) → ch!"็" ∈ w)

section
variable {ct : CType} {w : U16Str} {t : Nat} {o : Onset} {r : Rime}

theorem rf_none {k b v m} : RimeFacts w o ⟨k, b, v, .NONE, m⟩ := fun h => absurd rfl h

theorem rf_safe {k b v f m} (h : v ∉ fussy) : RimeFacts w o ⟨k, b, v, f, m⟩ := by
  intro _
  have key : ∀ x : Int, x ∈ fussy → v ≠ x := fun x hx he => h (he ▸ hx)
  refine ⟨fun hv => ?_, fun _ hv => ?_, fun hv => ?_, fun hv => ?_⟩
  · exact h ((by decide : ∀ x ∈ (b!"yztw").map (fun (n : Nat) => (n : Int)), x ∈ fussy) v hv)
  · rcases hv with hv | hv
    · exact absurd hv (key _ (by decide))
    · exact absurd hv (key _ (by decide))
  · exact absurd hv (key _ (by decide))
  · exact absurd ((by decide : ∀ x ∈ (b!"exc").map (fun (n : Nat) => (n : Int)), x ∈ fussy) v hv) h

theorem rf_open {j v m} {f : EndConsClass} (h : Open ct w t j v f m r) (hv : f = .NONE ∨ v ∉ fussy) : RimeFacts w o r := by
  obtain ⟨k, -, rfl⟩ := h
  rcases hv with rfl | hv
  · exact rf_none
  · exact rf_safe hv

theorem rf_shut {j excl v m} (h : Shut ct w t j excl v m r) (hv : v ∉ fussy) : RimeFacts w o r := by
  obtain ⟨k, b, f, -, rfl⟩ := h
  exact rf_safe hv

theorem rf_shutX {j excl v m} (h : ShutX ct w t j excl v m r) (hv : v ∉ fussy) : RimeFacts w o r := by
  obtain ⟨k, b, f, -, rfl⟩ := h
  exact rf_safe hv

/-- The short vowels e, ae, au before a final. -/
theorem rf_short {j excl v m} (h : Shut ct w t j excl v m r) (hv : v ∈ (b!"exc").map fun (n : Nat) => (n : Int))
    {i : Nat} (hw : At w t i ch!"็") : RimeFacts w o r := by
  obtain ⟨k, b, f, -, rfl⟩ := h
  intro _
  have hmem : ch!"็" ∈ w := List.mem_of_getElem? hw.2
  refine ⟨fun h => ?_, fun _ h => ?_, fun h => ?_, fun _ => hmem⟩
  · exact (by decide : ∀ x ∈ (b!"exc").map (fun (n : Nat) => (n : Int)),
      x ∉ (b!"yztw").map fun (n : Nat) => (n : Int)) v hv h
  · rcases h with h | h
    · exact absurd h ((by decide : ∀ x ∈ (b!"exc").map (fun (n : Nat) => (n : Int)), x ≠ VW.I) v hv)
    · exact absurd h ((by decide : ∀ x ∈ (b!"exc").map (fun (n : Nat) => (n : Int)), x ≠ VW.II) v hv)
  · exact absurd h ((by decide : ∀ x ∈ (b!"exc").map (fun (n : Nat) => (n : Int)), x ≠ VW.O) v hv)

theorem final_of_excl {i excl c f} (h : FinalAt ct w t i excl c f) (e : EndConsClass) (he : ∀ x ∈ finalLetters e, x ∈ excl) :
    f ≠ e := by
  rintro rfl
  exact h.2.2.2.2 (he c h.2.2.1)

/-- The vowels of ◌ิ ◌ี before a final other than ย. -/
theorem rf_sign {k b m v} {f : EndConsClass} (hv : v = VW.I ∨ v = VW.II ∨ v ∉ fussy) (hf : f ≠ .KOEY ∨ v ∉ fussy) :
    RimeFacts w o ⟨k, b, v, f, m⟩ := by
  by_cases hs : v ∉ fussy
  · exact rf_safe hs
  have hf := hf.resolve_right hs
  have hv : v = VW.I ∨ v = VW.II := by tauto
  intro _
  refine ⟨?_, fun h => absurd h hf, ?_, ?_⟩ <;> rcases hv with rfl | rfl <;> simp

theorem rf_signFinal {k : Nat} {v m} (hv : v = VW.I ∨ v = VW.II ∨ v ∉ fussy) (h : SignFinal ct w t k v m r) :
    RimeFacts w o r := by
  have excl : ∀ {i c f}, FinalAt ct w t i (if v = VW.I ∨ v = VW.II then u!"ย" else []) c f → f ≠ .KOEY ∨ v ∉ fussy := by
    intro i c f h
    by_cases hv' : v = VW.I ∨ v = VW.II
    · rw [if_pos hv'] at h
      exact .inl (final_of_excl h _ (by decide))
    · exact .inr (by tauto)
  obtain ⟨-, ⟨rfl, -, h⟩ | ⟨rfl, -, h⟩ | ⟨-, -, h⟩ | ⟨-, -, -, h⟩⟩ := h
  · exact rf_open h (by decide)
  · exact rf_shut h (by decide)
  · obtain ⟨k, b, f, ⟨c, hc, -⟩, rfl⟩ := h
    exact rf_sign hv (excl hc)
  · obtain ⟨k, b, f, ⟨c, hc, -⟩, rfl⟩ := h
    exact rf_sign hv (excl hc)

theorem rf_signRime {j : Nat} (h : SignRime ct w t j r) : RimeFacts w o r := by
  obtain ⟨c, v, m, k, -, -, hv, -, h⟩ := h
  have hv' : v = VW.I ∨ v = VW.II ∨ v ∉ fussy :=
    (by decide : ∀ x ∈ signVowels, x.2 = VW.I ∨ x.2 = VW.II ∨ x.2 ∉ fussy) _ hv
  rcases h with ⟨-, -, h⟩ | ⟨-, ⟨-, h⟩ | ⟨-, -, rfl⟩ | ⟨-, -, h⟩⟩
  · exact rf_signFinal hv' h
  · rcases h with rfl | h
    · exact rf_none
    · exact rf_signFinal hv' h
  · exact rf_none
  · rcases h with rfl | h
    · exact rf_none
    · exact rf_signFinal hv' h

theorem rf_han {j : Nat} (h : HanRime ct w t j r) : RimeFacts w o r := by
  obtain ⟨-, m, k, -, ⟨-, -, h⟩ | ⟨-, -, h⟩ | ⟨-, -, h⟩ | ⟨-, -, h⟩⟩ := h
  · exact rf_open h (by decide)
  · exact rf_open h (by decide)
  · exact rf_shutX h (by decide)
  · exact rf_shut h (by decide)

theorem rf_ro {k m} (h : RoRime ct w t o k m r) : RimeFacts w o r := by
  obtain ⟨-, ⟨-, h⟩ | ⟨k', -, -, h | ⟨-, h⟩⟩⟩ := h
  · exact rf_open h (by decide)
  · exact rf_open h (by decide)
  · exact rf_shutX h (by decide)

theorem rf_plain {l j} (hin : ∀ v, o.inherent = some v → ch!"ฤ" ∈ w ∧ (v = VW.I ∨ v = VW.UE))
    (h : PlainRime ct w t o l j r) : RimeFacts w o r := by
  obtain ⟨m, k, -, ⟨-, h⟩ | ⟨-, h | ⟨k', -, h⟩⟩ | ⟨-, h⟩ | ⟨-, h⟩ | ⟨-, h | ⟨k', -, h⟩⟩ | h | ⟨-, hs, -, h⟩ |
    ⟨v, c, hv, -, -, -, h⟩⟩ := h
  · exact rf_open h (by decide)
  · exact rf_open h (by decide)
  · exact rf_shutX h (by decide)
  · exact rf_open h (by decide)
  · exact rf_shut h (by decide)
  · exact rf_open h (by decide)
  · exact rf_shut h (by decide)
  · exact rf_ro h
  · obtain ⟨k, b, f, ⟨c, hc, -⟩, rfl⟩ := h
    have h1 := final_of_excl hc .KOEY (by decide)
    have h2 := final_of_excl hc .KOEW (by decide)
    exact fun _ => ⟨(by simp), fun h => absurd h h1, fun _ => ⟨h1, h2, hs⟩, (by simp)⟩
  · obtain ⟨hw, hv'⟩ := hin v hv
    rcases h with rfl | ⟨k, b, f, -, rfl⟩
    · exact rf_none
    · rcases hv' with rfl | rfl
      · exact fun _ => ⟨(by simp), fun _ _ => .inl hw, (by simp), (by simp)⟩
      · exact rf_safe (by decide)

theorem onset_inherent {i : Nat} {l : Bool} (h : OnsetAt ct w t i l o) :
    ∀ v, o.inherent = some v → ch!"ฤ" ∈ w ∧ (v = VW.I ∨ v = VW.UE) := by
  obtain ⟨c, snd, cls, -, -, rfl | ⟨d, snd2, cls2, -, -, -, h⟩ | ⟨⟨hr, -⟩, h⟩⟩ := h
  · intro v hv; cases hv
  · rcases h with ⟨_, _, _, _, _, rfl⟩ | ⟨_, _, _, rfl⟩ | ⟨_, _, rfl⟩ | rfl <;> (intro v hv; cases hv)
  · intro v hv
    refine ⟨List.mem_of_getElem? hr.2, ?_⟩
    rcases h with ⟨-, rfl⟩ | ⟨-, rfl | rfl⟩ | ⟨-, rfl⟩ | ⟨-, rfl⟩ | ⟨-, -, rfl⟩ | ⟨-, v', hv', ⟨-, rfl⟩ | rfl⟩ <;>
      (cases hv) <;> first | exact .inl rfl | exact .inr rfl | exact hv'

theorem rf_mid {sign mid : Nat} {short long : Vowel} {j : Nat} {full : Bool} (hl : long ∉ fussy)
    (h : MidRime ct w t sign mid short long j full r) : RimeFacts w o r := by
  obtain ⟨-, m, k, -, -, ⟨-, h⟩ | ⟨-, h | ⟨k', -, h⟩⟩⟩ := h
  · exact rf_open h (.inl rfl)
  · exact rf_open h (.inl rfl)
  · split at h
    · exact rf_shutX h hl
    · exact rf_shut h hl

theorem rf_e (h : ERime ct w t o r) : RimeFacts w o r := by
  rcases h with ⟨-, -, rfl⟩ | ⟨-, m, k, k', -, -, h⟩ | h | h | ⟨hw, h⟩ | ⟨-, m, k, -, h⟩
  · exact rf_none
  · exact rf_shut h (by decide)
  · exact rf_mid (by decide) h
  · exact rf_mid (by decide) h
  · exact rf_short h (by decide) hw
  · rcases h with ⟨-, rfl⟩ | ⟨-, ⟨-, h⟩ | ⟨-, h⟩ | ⟨-, h⟩⟩ | ⟨-, -, h⟩ | ⟨-, ⟨-, h⟩ | ⟨-, h⟩⟩ | ⟨-, -, h⟩ |
      ⟨c, -, -, -, -, -, h | ⟨k', -, h⟩⟩
    · exact rf_none
    all_goals first | exact rf_open h (by decide) | exact rf_shutX h (by decide)

theorem rf_lead {v j : Nat} (h : LeadRime ct w t v j r) : RimeFacts w o r := by
  obtain ⟨m, k, -, ⟨-, h⟩ | ⟨-, h⟩ | ⟨-, h⟩ | ⟨-, h⟩⟩ := h
  · rcases h with ⟨-, h⟩ | ⟨hw, h⟩ | ⟨-, -, h | ⟨k', -, h⟩⟩
    · exact rf_open h (by decide)
    · exact rf_short h (by decide) hw
    · exact rf_open h (by decide)
    · exact rf_shut h (by decide)
  · rcases h with ⟨-, ⟨-, rfl⟩ | ⟨-, k', -, rfl⟩⟩ | ⟨-, ⟨-, rfl | h⟩ | ⟨-, -, rfl⟩ | ⟨-, -, rfl | h⟩⟩
    any_goals exact rf_none
    all_goals exact rf_shutX h (by decide)
  · rcases h with h | ⟨-, -, -, rfl⟩
    · exact rf_open h (by decide)
    · exact rf_safe (by decide)
  · rcases h with h | ⟨-, -, -, rfl⟩
    · exact rf_open h (by decide)
    · exact rf_safe (by decide)

theorem rf_ru {i : Nat} (hc : ch!"ฤ" ∈ w ∨ ch!"ฦ" ∈ w) (h : RuRime ct w t i r) : RimeFacts w o r := by
  rcases h with ⟨-, rfl⟩ | ⟨-, rfl⟩ | ⟨d, -, -, ⟨-, rfl⟩ | ⟨-, h⟩⟩
  · exact rf_none
  · exact rf_none
  · exact rf_none
  · obtain ⟨k, b, f, -, rfl⟩ := h
    split
    · exact fun _ => ⟨(by simp), fun _ _ => hc, (by simp), (by simp)⟩
    · exact rf_safe (by decide)

theorem rime_facts {i : Nat} {l : Bool} (h : Spelled ct w t i l o r) : RimeFacts w o r := by
  obtain ⟨c, hc, ⟨-, ⟨h1, -, h2⟩ | ⟨h, -⟩⟩ | ⟨-, -, -, h⟩ | ⟨-, -, -, h⟩ | ⟨hcc, -, h⟩⟩ := h
  · rcases h2 with h2 | h2 | h2 | h2
    · exact rf_han h2
    · exact rf_signRime h2
    · obtain ⟨hw, -, k, -, h2⟩ := h2
      exact rf_short h2 (by decide) hw
    · exact rf_plain (onset_inherent h1) h2
  · obtain ⟨c, snd, cls, -, -, h⟩ := h
    rcases h with ⟨-, -, rfl⟩ | ⟨-, -, -, -, -, rfl⟩ | ⟨-, -, -, ⟨-, -, -, rfl⟩ | ⟨-, -, -, rfl⟩ | ⟨-, -, -, rfl⟩⟩ | ⟨-, -, -, rfl⟩
    all_goals exact rf_none
  · exact rf_e h
  · exact rf_lead h
  · refine rf_ru ?_ h
    have := List.mem_of_getElem? hc
    rcases hcc with rfl | rfl
    · exact .inl this
    · exact .inr this

/-- A second consonant that is heard is written, in a true cluster. -/
theorem onset_second {i : Nat} {l : Bool} (h : OnsetAt ct w t i l o) (hs : o.second ≠ SC.NONE) :
    ch!"ฤ" ∈ w ∨ ∃ c, w[i]? = some c ∧ ∃ e ∈ trueClusters, e.2.2 = o.second ∧ c ∈ e.1 := by
  obtain ⟨c, snd, cls, hc, -, rfl | ⟨d, snd2, cls2, -, -, -, h⟩ | ⟨⟨hr, -⟩, h⟩⟩ := h
  · exact absurd rfl hs
  · rcases h with ⟨cs, s, h1, h2, -, rfl⟩ | ⟨_, _, _, rfl⟩ | ⟨_, _, rfl⟩ | rfl
    · exact .inr ⟨c, hc, _, h1, rfl, h2⟩
    all_goals exact absurd rfl hs
  · exact .inl (List.mem_of_getElem? hr.2)

/-- The class of an onset. -/
theorem onset_class {i : Nat} {l : Bool} (h : OnsetAt ct w t i l o) : o.cls ≠ .INVALID := by
  have letter : ∀ {c snd cls}, Letter ct c snd cls → cls ≠ .INVALID := by
    rintro c snd cls h rfl
    cases h.2.2
  obtain ⟨c, snd, cls, -, hl, rfl | ⟨d, snd2, cls2, -, hl2, -, h⟩ | ⟨-, h⟩⟩ := h
  · exact letter hl
  · rcases h with ⟨cs, s, -, -, -, rfl⟩ | ⟨_, _, _, rfl⟩ | ⟨_, _, rfl⟩ | rfl
    · exact letter hl
    · exact letter hl
    · simp
    · dsimp only
      split
      · exact letter hl
      · exact letter hl2
  · have := letter hl
    rcases h with ⟨-, rfl⟩ | ⟨-, rfl | rfl⟩ | ⟨-, rfl⟩ | ⟨-, rfl⟩ | ⟨-, -, rfl⟩ | ⟨-, v', hv', ⟨-, rfl⟩ | rfl⟩ <;>
      first | exact this | simp

theorem spelled_class {i : Nat} {l : Bool} (h : Spelled ct w t i l o r) : o.cls ≠ .INVALID := by
  obtain ⟨c, hc, ⟨-, ⟨h1, -⟩ | ⟨h, -⟩⟩ | ⟨-, -, h, -⟩ | ⟨-, -, h, -⟩ | ⟨-, rfl, -⟩⟩ := h
  · exact onset_class h1
  · obtain ⟨c, snd, cls, -, hl, h⟩ := h
    have : cls ≠ .INVALID := by rintro rfl; cases hl.2.2
    rcases h with ⟨-, rfl, -⟩ | ⟨-, -, -, -, rfl, -⟩ | ⟨-, -, -, ⟨-, -, rfl, -⟩ | ⟨-, -, rfl, -⟩ | ⟨-, -, rfl, -⟩⟩ | ⟨-, -, rfl, -⟩
    all_goals first | exact this | simp
  · exact onset_class h
  · exact onset_class h
  · simp

/-- A dead syllable never has the middle tone. -/
theorem dead_tone {cls : InitConsClass} (hc : cls ≠ .INVALID) {v f} (hd : Dead v f) (m : Tone) :
    spokenTone cls v f m ≠ .SAMAN := by
  unfold spokenTone
  rw [decide_eq_true hd]
  generalize decide (v ∈ shortVowels) = b
  revert b
  cases cls
  · exact absurd rfl hc
  all_goals (cases m <;> decide)

end

/-! ## Edges over a whole word -/

section
variable {ct : CType} {w : U16Str} {brk : List Int}

theorem nextBreak_whole (hb : ∀ b ∈ brk, b ≤ 0 ∨ b = w.length) (p : Nat) : nextBreak w brk p = w.length := by
  unfold nextBreak
  cases h : brk.find? fun b => decide (b > (p : Int)) with
  | none => rfl
  | some b =>
    have h1 := List.mem_of_find?_eq_some h
    have h2 := List.find?_some h
    simp only [decide_eq_true_eq] at h2
    rcases hb b h1 with h3 | h3
    · omega
    · exact h3

/-- An edge over a whole word of Thai letters is a syllable by itself. -/
theorem whole_edge {look : List Nat → Option Str} (hlook : ∀ v, look v = none) (hlen : 2 ≤ w.length)
    (hb : ∀ b ∈ brk, b ≤ 0 ∨ b = w.length) (htx : ∀ i, i < w.length → TextAt ct w i)
    (hno : ch!"." ∉ w ∧ ch!" " ∉ w) {c : Config}
    (h : Relation.ReflTransGen (Rule ct w look brk) ⟨0, false, []⟩ c) {e : Entry Syl} (he : e ∈ c.edges)
    (hk : e.key = 0) (ht : e.target = w.length) :
    ∃ l o r, Spelled ct w w.length 0 l o r ∧ o.pre = none ∧ r.stop = w.length ∧ e.val = spoken o r := by
  have hdot : ∀ i : Nat, w[i]? ≠ some ch!"." := fun i h => hno.1 (List.mem_of_getElem? h)
  have hsp : ∀ i : Nat, w[i]? ≠ some ch!" " := fun i h => hno.2 (List.mem_of_getElem? h)
  have stop : ∀ {p t}, TokenTo ct w brk p t → t = w.length := by
    rintro p t ⟨-, hle, -, -, hf⟩
    rw [nextBreak_whole hb] at hf
    rcases hf with hf | ⟨hf, hn⟩
    · omega
    · exact absurd (htx t hf) hn
  induction h with
  | refl => cases he
  | tail _ hs ih =>
    cases hs with
    | @other p l es q ho =>
      obtain ⟨h1, h2, h3, -⟩ := ho
      exact absurd (htx p (by omega)) (h3 p le_rfl h1)
    | word _ hw =>
      obtain ⟨-, -, h, -⟩ := hw
      rw [hlook] at h; cases h
    | @abbr p l es t q new htk _ ha =>
      exfalso
      have hp : p = 0 := ha.start.elim id fun h => h.elim (fun h => absurd h (hsp _)) fun h => absurd h (hdot _)
      have := stop htk
      rcases ha.shape with ⟨n, -, -, -, h⟩ | ⟨h1, h2, -⟩
      · exact hdot _ h
      · omega
    | @syl p l es t o r htk _ _ hS =>
      rcases List.mem_append.mp he with he | he
      · exact ih he
      · have := stop htk
        subst this
        unfold spelledEdges at he
        cases hpre : o.pre with
        | none =>
          rw [hpre] at he
          simp only [List.mem_singleton] at he
          subst he
          simp only at hk ht
          have hp : p = 0 := by omega
          subst hp
          exact ⟨l, o, r, hS, hpre, by omega, rfl⟩
        | some pre =>
          exfalso
          rw [hpre] at he
          simp only [List.mem_cons, List.not_mem_nil, or_false] at he
          unfold spanPos at he
          rcases he with rfl | rfl
          · simp only at hk ht; omega
          · simp only at hk ht; omega
    | dot _ _ _ hd => exact absurd hd (hdot _)

end

/-! ## The text of a respelling -/

/-- The characters of respellings. -/
def respChar (x : Nat) : Bool :=
  decide ((thaiCType.isCons x = true ∨ thaiCType.isVowel x = true ∨ thaiCType.isTone x = true ∨ x ∈ u!"็์.") ∧
    x ∉ u!". ฤฦ")

theorem way_chars : ∀ i ∈ allInit, ∀ c ∈ Spec.clusters, ∀ t ∈ allTones, ∀ dead short : Bool,
    (plain ((chosenWay i dead short t).2.1 ++ secondText c)).all (fun x => respChar x && thaiCType.isCons x) = true ∧
    (chosenWay i dead short t).2.2.1.all (fun x => respChar x && !thaiCType.isLdVowel x && decide (x ≠ ch!"็")) = true ∧
    thaiCType.isCons ((chosenWay i dead short t).2.1.headD 0) = true ∧
    (plain ((chosenWay i dead short t).2.1 ++ secondText c)).head? = some ((chosenWay i dead short t).2.1.headD 0) := by
  decide +kernel

theorem frame_chars : ∀ v ∈ vowels, ∀ e ∈ [EndConsClass.NONE, .KOK, .KOT, .KOP, .KONG, .KON, .KOM, .KOEY, .KOEW],
    plain (frameOf v e).1.1 = (frameOf v e).1.1 ∧ plain (frameOf v e).1.2.1 = (frameOf v e).1.2.1 ∧
    plain (frameOf v e).1.2.2 = (frameOf v e).1.2.2 ∧ plain (frameOf v e).2 = (frameOf v e).2 ∧
    ((frameOf v e).1.1 = [] ∨ ∃ x ∈ (frameOf v e).1.1, (frameOf v e).1.1 = [x] ∧ respChar x = true ∧ thaiCType.isLdVowel x = true) ∧
    ((frameOf v e).1.2.1 ++ (frameOf v e).1.2.2 ++ (frameOf v e).2).all (fun x => respChar x && !thaiCType.isLdVowel x) = true ∧
    ((frameOf v e).1.2.1 = u!"็" ∨ ch!"็" ∉ (frameOf v e).1.2.1) ∧ ch!"็" ∉ (frameOf v e).1.2.2 ++ (frameOf v e).2 ∧
    ((frameOf v e).1.1 ++ (frameOf v e).1.2.2 ++ (frameOf v e).2 ≠ [] ∨
      ((frameOf v e).1.2.1 ≠ [] ∧ (frameOf v e).1.2.1 ≠ u!"็")) := by
  decide +kernel

/-- The parts of the text of a respelling. -/
theorem respelled_parts {s : Syl} (h : ValidSyl s) :
    ∃ lead rest a, plain (respelled s) = lead ++ a :: rest ∧
      (lead = [] ∨ ∃ x, lead = [x] ∧ respChar x = true ∧ thaiCType.isLdVowel x = true) ∧
      a = (chosenWay s.iCons1 (spelledDead s) (spelledShort s) s.tone).2.1.headD 0 ∧ respChar a = true ∧
      thaiCType.isCons a = true ∧
      (∀ x ∈ rest, respChar x = true ∧ thaiCType.isLdVowel x = false) ∧ (lead ≠ [] ∨ rest ≠ []) ∧
      ((chosenWay s.iCons1 (spelledDead s) (spelledShort s) s.tone).2.2.1 ≠ [] → ch!"็" ∉ lead ++ a :: rest) := by
  obtain ⟨w1, w2, w3, w4⟩ := way_chars s.iCons1 (mem_allInit h.iCons1) s.iCons2 h.iCons2 s.tone (mem_allTones h.tone)
    (spelledDead s) (spelledShort s)
  obtain ⟨-, -, t3⟩ := onset_table s.iCons1 (mem_allInit h.iCons1) s.iCons2 h.iCons2 s.tone (mem_allTones h.tone)
    (spelledDead s) (spelledShort s)
  obtain ⟨f1, f2, f3, f4, f5, f6, f7, f8, f9⟩ := frame_chars s.vowel h.vowel s.eCons (by cases s.eCons <;> decide)
  have hresp : plain (respelled s) = plain (framed (frameOf s.vowel s.eCons).1
      ((chosenWay s.iCons1 (spelledDead s) (spelledShort s) s.tone).2.1 ++ secondText s.iCons2)
      (chosenWay s.iCons1 (spelledDead s) (spelledShort s) s.tone).2.2.1 (frameOf s.vowel s.eCons).2) := rfl
  rw [hresp]
  clear hresp
  generalize chosenWay s.iCons1 (spelledDead s) (spelledShort s) s.tone = x at *
  obtain ⟨cls, on, mk, m⟩ := x
  obtain ⟨k1, -⟩ := mark_plain _ t3
  simp only at *
  generalize frameOf s.vowel s.eCons = F at *
  obtain ⟨⟨lead, sg, tl⟩, fin⟩ := F
  have ldc : ∀ x, thaiCType.isCons x = true → thaiCType.isLdVowel x = false := by
    intro x hx
    by_contra hl
    have h1 := thaiCType_ok.cons x hx
    have h2 := thaiCType_ok.ld x (by simpa using hl)
    omega
  simp only at *
  generalize hpo : plain (on ++ secondText s.iCons2) = po at *
  obtain ⟨po', rfl⟩ : ∃ po', po = on.headD 0 :: po' := by
    cases po with
    | nil => cases w4
    | cons y ys => exact ⟨ys, by rw [Option.some.inj w4]⟩
  have hsg : ∀ x ∈ (if sg = u!"็" ∧ mk ≠ [] then [] else sg), x ∈ sg := by
    intro x hx; split at hx
    · cases hx
    · exact hx
  refine ⟨lead, po' ++ (if sg = u!"็" ∧ mk ≠ [] then [] else sg) ++ mk ++ tl ++ fin, _, ?_, ?_, rfl, ?_, w3, ?_, ?_, ?_⟩
  · unfold framed
    have hs : plain (if sg = u!"็" ∧ mk ≠ [] then [] else sg) = if sg = u!"็" ∧ mk ≠ [] then [] else sg := by
      split
      · rfl
      · exact f2
    simp only [plain_append] at *
    rw [hs, f1, f3, f4, k1, hpo]
    simp
  · rcases f5 with f5 | ⟨x, -, f5⟩
    · exact .inl f5
    · exact .inr ⟨x, f5⟩
  · have := List.all_eq_true.mp w1 _ (List.mem_cons_self ..)
    simp only [Bool.and_eq_true] at this
    exact this.1
  · intro x hx
    simp only [List.mem_append] at hx
    rcases hx with (((hx | hx) | hx) | hx) | hx
    · have := List.all_eq_true.mp w1 _ (List.mem_cons_of_mem _ hx)
      simp only [Bool.and_eq_true] at this
      exact ⟨this.1, ldc _ this.2⟩
    · have := List.all_eq_true.mp f6 x (by simp [hsg x hx])
      simpa using this
    · have := List.all_eq_true.mp w2 x hx
      simp only [Bool.and_eq_true] at this
      exact ⟨this.1.1, by simpa using this.1.2⟩
    · have := List.all_eq_true.mp f6 x (by simp [hx])
      simpa using this
    · have := List.all_eq_true.mp f6 x (by simp [hx])
      simpa using this
  · rcases f9 with f9 | ⟨f9, f9'⟩
    · by_cases hl : lead = []
      · right
        intro hn
        simp only [List.append_eq_nil_iff] at hn
        exact f9 (by simp [hl, hn])
      · exact .inl hl
    · right
      intro hn
      simp only [List.append_eq_nil_iff] at hn
      have := hn.1.1.1.2
      rw [if_neg (by simp [f9'])] at this
      exact f9 this
  · intro hm hmem
    simp only [List.mem_append, List.mem_cons] at hmem f8
    have notcons : thaiCType.isCons ch!"็" = false := by decide
    rcases hmem with hx | hx | (((hx | hx) | hx) | hx) | hx
    · rcases f5 with f5 | ⟨x, -, rfl, -, f5⟩
      · rw [f5] at hx; cases hx
      · rw [← List.mem_singleton.mp hx] at f5
        exact absurd f5 (by decide)
    · rw [← hx, notcons] at w3; cases w3
    · have := List.all_eq_true.mp w1 _ (List.mem_cons_of_mem _ hx)
      rw [notcons] at this; simp at this
    · rcases f7 with f7 | f7
      · rw [if_pos ⟨f7, hm⟩] at hx; cases hx
      · exact f7 (hsg _ hx)
    · have := List.all_eq_true.mp w2 _ hx
      simp at this
    · exact f8 (.inl hx)
    · exact f8 (.inr hx)

/-! ## The long e before ย -/

/-- The grammar does not read the word as one syllable with the long e and ย. -/
def eeB (w : U16Str) : Bool :=
  match grammar thaiCType w 0 w.length false ch!"เ" with
  | .ok ems => ems.all fun e => !(decide (e.pos = w.length) && decide (e.p.vowel = VW.EE) && decide (e.p.eConsClass = .KOEY))
  | _ => false

theorem ee_table : ∀ i ∈ allInit, ∀ c ∈ Spec.clusters, ∀ t ∈ allTones,
    HasCluster ⟨i, c, VW.EE, .KOEY, t, [], -1⟩ ((chosenWay i false false t).2.1.headD 0) →
    eeB (plain (respelled ⟨i, c, VW.EE, .KOEY, t, [], -1⟩)) = true ∧
    (plain (respelled ⟨i, c, VW.EE, .KOEY, t, [], -1⟩))[0]? = some ch!"เ" := by
  decide +kernel

/-! ## What is not respellable is not read back -/

theorem respChar_no {x : Nat} (h : respChar x = true) : IsText thaiCType x ∧ x ∉ u!". ฤฦ" := by
  simpa [respChar, IsText] using h

/-- A valid syllable that is read back is respellable. -/
theorem respell_needed {s : Syl} (h : ValidSyl s) {l : Bool} {o : Onset} {r : Rime}
    (hS : Spelled thaiCType (plain (respelled s)) (plain (respelled s)).length 0 l o r)
    (hstop : r.stop = (plain (respelled s)).length)
    (heq : ceq (spoken o r) s = true) : Respellable s := by
  obtain ⟨lead, rest, a, hw, hlead, ha, hac, hcons, hrest, hlong, hmk⟩ := respelled_parts h
  have hlit : s.literal = [] := by
    have := h.not_literal
    simpa [Syl.isLiteral] using this
  replace heq := (Syl.eq_iff _ _).mp heq
  obtain ⟨e1, e2, e3, e4, e5⟩ := heq.2 (by simp [spoken, Syl.isLiteral])
  simp only [spoken] at e1 e2 e3 e4 e5
  have hall : ∀ x ∈ plain (respelled s), respChar x = true := by
    rw [hw]
    intro x hx
    simp only [List.mem_append, List.mem_cons] at hx
    rcases hx with hx | rfl | hx
    · rcases hlead with rfl | ⟨y, rfl, hy, -⟩
      · cases hx
      · rw [List.mem_singleton.mp hx]; exact hy
    · exact hac
    · exact (hrest x hx).1
  have hno : ∀ x ∈ u!". ฤฦ", x ∉ plain (respelled s) := fun x hx hm => (respChar_no (hall x hm)).2 hx
  have hru : ch!"ฤ" ∉ plain (respelled s) := hno _ (by decide)
  have hlu : ch!"ฦ" ∉ plain (respelled s) := hno _ (by decide)
  -- the cluster
  have hclu : HasCluster s a := by
    by_cases h2 : s.iCons2 = SC.NONE
    · exact .inl h2
    have h2' : o.second ≠ SC.NONE := by rw [e2]; exact h2
    have fin : ∀ {i : Nat}, OnsetAt thaiCType (plain (respelled s)) (plain (respelled s)).length i l o →
        (∀ c, (plain (respelled s))[i]? = some c → c = a) → ∃ e ∈ trueClusters, e.2.2 = s.iCons2 ∧ a ∈ e.1 := by
      intro i ho hi
      rcases onset_second ho h2' with hr | ⟨c, hc, e, he, h3, h4⟩
      · exact absurd hr hru
      · exact ⟨e, he, h3.trans e2, hi c hc ▸ h4⟩
    refine .inr ⟨?_, ?_⟩
    · obtain ⟨c, hc, ⟨hcc, ⟨h1, -⟩ | ⟨hwh, hlt⟩⟩ | ⟨rfl, -, h1, -⟩ | ⟨hld, -, h1, -⟩ | ⟨hcc, -, -⟩⟩ := id hS
      · refine fin h1 fun c' hc' => ?_
        rw [hw] at hc hc'
        rcases hlead with rfl | ⟨y, rfl, -, hy⟩
        · exact (Option.some.inj hc').symm
        · rw [Option.some.inj hc] at hy
          have k1 := thaiCType_ok.cons c hcc
          have k2 := thaiCType_ok.ld c hy
          omega
      · omega
      · refine fin h1 fun c' hc' => ?_
        rw [hw] at hc hc'
        rcases hlead with rfl | ⟨y, rfl, -, hy⟩
        · rw [Option.some.inj hc] at hcons; exact absurd hcons (by decide)
        · exact (Option.some.inj hc').symm
      · refine fin h1 fun c' hc' => ?_
        rw [hw] at hc hc'
        rcases hlead with rfl | ⟨y, rfl, -, hy⟩
        · rw [Option.some.inj hc] at hcons
          have k1 := thaiCType_ok.cons c hcons
          have k2 := thaiCType_ok.ld c hld
          omega
        · exact (Option.some.inj hc').symm
      · have := List.mem_of_getElem? hc
        rcases hcc with rfl | rfl
        · exact absurd this hru
        · exact absurd this hlu
    · rintro ⟨k1, k2, k3⟩
      exact ((rime_facts hS (by rw [e4]; exact k3)).2.2.1 (e3.trans k2)).2.2 (e2.trans k1)
  -- the vowel and final
  have hsp : HasSpelling s.vowel s.eCons
      (decide ((chosenWay s.iCons1 (spelledDead s) (spelledShort s) s.tone).2.2.1 ≠ [])) := by
    by_cases hN : s.eCons = .NONE
    · exact .inl hN
    obtain ⟨r1, r2, r3, r4⟩ := rime_facts hS (by rw [e4]; exact hN)
    rw [e3, e4] at r2
    rw [e3] at r1 r3 r4
    rw [e4] at r3
    refine .inr ⟨r1, ?_, fun k => (r3 k.2).2.1 k.1, ?_⟩
    · rintro ⟨kf, kv⟩
      have : s.vowel = VW.I ∨ s.vowel = VW.II ∨ s.vowel = VW.EE ∨ s.vowel = VW.O := by
        simpa [VW.I, VW.II, VW.EE, VW.O] using kv
      rcases this with k | k | k | k
      · exact (r2 kf (.inl k)).elim hru hlu
      · exact (r2 kf (.inr k)).elim hru hlu
      · obtain ⟨i, c, v, e, t, lit, en⟩ := s
        simp only at k kf e3 e4
        subst k kf
        obtain ⟨q1, q2⟩ := ee_table i (mem_allInit h.iCons1) c h.iCons2 t (mem_allTones h.tone) (ha ▸ hclu)
        have hS' : Spelled thaiCType (plain (respelled ⟨i, c, VW.EE, .KOEY, t, [], -1⟩))
          (plain (respelled ⟨i, c, VW.EE, .KOEY, t, [], -1⟩)).length 0 false o r := by
            cases l
            · exact hS
            · exact spelled_unlink hS
        change r.stop = (plain (respelled ⟨i, c, VW.EE, .KOEY, t, [], -1⟩)).length at hstop
        generalize plain (respelled ⟨i, c, VW.EE, .KOEY, t, [], -1⟩) = w at *
        unfold eeB at q1
        cases hg : grammar thaiCType w 0 w.length false ch!"เ" with
        | ok ems =>
          rw [hg] at q1
          have := (satP_iff _ _).mp (grammar_spelled thaiCType_ok q2) ems hg
          obtain ⟨e, he, -, rfl⟩ := this.2 o r hS'
          have := List.all_eq_true.mp q1 e he
          simp only [rimeOf] at hstop e3 e4
          simp [hstop, e3, e4] at this
        | _ => rw [hg] at q1; cases q1
      · exact (r3 k).1 kf
    · rintro ⟨km, kv⟩
      exact hmk (by simpa using km) (hw ▸ r4 kv)
  refine ⟨?_, hsp, ha ▸ hclu⟩
  rintro ⟨hd, ht⟩
  rw [(tone_back hsp h).1, decide_eq_true_eq] at hd
  rw [e3, e4] at e5
  exact dead_tone (spelled_class hS) hd r.mark (e5.trans ht)

/-- The respelling of any valid syllable can be parsed, and if it is listed as that one syllable, the syllable is
respellable. -/
theorem not_back {p : Parser} {s : Syl} (h : ValidSyl s) (hd : p.exceptDict = none)
    {word : Str} (hw : fromBytes word = .ok (plain (respelled s)))
    (hb : ∀ b ∈ findBreaks (plain (respelled s)) p.thBrk, b ≤ 0 ∨ b = (plain (respelled s)).length) :
    ∃ d ss, p.parseWord thaiCType word = .ok d ∧ PronunDAG.sylStrings d 0 = .ok ss ∧
      ∀ x, [x] ∈ ss → ceq x s = true → Respellable s := by
  obtain ⟨lead, rest, a, hparts, hlead, -, hac, hcons, hrest, hlong, -⟩ := respelled_parts h
  have hall : ∀ x ∈ plain (respelled s), respChar x = true := by
    rw [hparts]
    intro x hx
    simp only [List.mem_append, List.mem_cons] at hx
    rcases hx with hx | rfl | hx
    · rcases hlead with rfl | ⟨y, rfl, hy, -⟩
      · cases hx
      · rw [List.mem_singleton.mp hx]; exact hy
    · exact hac
    · exact (hrest x hx).1
  have hlen : 2 ≤ (plain (respelled s)).length := by
    rw [hparts]
    have h1 : lead ≠ [] → 1 ≤ lead.length := List.length_pos_iff.mpr
    have h2 : rest ≠ [] → 1 ≤ rest.length := List.length_pos_iff.mpr
    simp only [List.length_append, List.length_cons]
    rcases hlong with h | h
    · have := h1 h; omega
    · have := h2 h; omega
  have hlast : ∀ c, (plain (respelled s)).getLast? = some c → thaiCType.isLdVowel c = true → c = UTH.SARA_E := by
    intro c hc hl
    exfalso
    rw [hparts, List.getLast?_append_of_ne_nil _ (by simp)] at hc
    rcases List.mem_cons.mp (List.mem_of_getLast? hc) with rfl | hm
    · have k1 := thaiCType_ok.cons c hcons
      have k2 := thaiCType_ok.ld c hl
      omega
    · rw [(hrest c hm).2] at hl; cases hl
  have hH : Holds p.exceptDict fun _ => none := hd ▸ holds_none
  have hb' : ∀ b ∈ findBreaks (plain (respelled s)) p.thBrk, b ≤ (plain (respelled s)).length := by
    intro b hm
    rcases hb b hm with h | h <;> omega
  obtain ⟨d, hp⟩ := C37_partial thaiCType_ok p word _ _ hw hH readable_none hb' hlast
  have hp' := hp
  rw [C37_word p word _ hw] at hp'
  obtain ⟨ss, hss, hroute, -⟩ := listing_routes thaiCType_ok hH goodLook_none (by
    intro h0; rw [h0] at hlen; simp at hlen) hp'
  refine ⟨d, ss, hp, hss, fun x hx hxs => ?_⟩
  obtain ⟨⟨es, hes, e, he, hk, ht, hv⟩, hend⟩ := hroute _ hx
  have htx : ∀ i, i < (plain (respelled s)).length → TextAt thaiCType (plain (respelled s)) i := fun i hi =>
    ⟨_, List.getElem?_eq_getElem hi, (respChar_no (hall _ (List.getElem_mem hi))).1⟩
  have hno : ∀ x ∈ u!". ฤฦ", x ∉ plain (respelled s) := fun x hx hm => (respChar_no (hall x hm)).2 hx
  obtain ⟨b, hr, -, rfl⟩ := hes
  obtain ⟨l, o, r, hS, -, hstop, hval⟩ := whole_edge (fun _ => rfl) hlen hb htx ⟨hno _ (by decide), hno _ (by decide)⟩
    hr he hk (ht.trans hend)
  refine respell_needed h hS hstop ?_
  rw [← hval]
  exact Syl.eq_trans hv hxs

end Thpronun
