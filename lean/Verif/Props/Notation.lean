import Verif.Lemmas.Roman
import Verif.Props.Dag

/-! # Properties C25–C28: Soundex, phonetic, Roman and Thai notation -/

namespace Thpronun
open Spec

private def kaa : Syl := ⟨.KA, SC.NONE, VW.AA, .NONE, .SAMAN, [], 2⟩
private def ang : Syl := ⟨.A, SC.NONE, VW.A, .KONG, .SAMAN, [], 5⟩
private def bl : Syl := Syl.blankAt 6

/-! ## C25: Soundex -/

/-- The code has three characters. -/
theorem C25_length (s : Syl) (h : ValidSyl s) : ∃ a v e, soundexSyl s = .ok [a, v, e] := by
  obtain ⟨a, c, d, _, _, _, ht⟩ := soundex_valid s h
  exact ⟨a, c, d, ht⟩

/-- Equal codes: same initial up to r and l, same vowel quality, same final. Cluster, length and tone do
not matter. -/
theorem C25_iff (s s' : Syl) (h : ValidSyl s) (h' : ValidSyl s') :
    soundexSyl s = soundexSyl s' ↔ mergeRL s.iCons1 = mergeRL s'.iCons1 ∧
      shortOf s.vowel = shortOf s'.vowel ∧ s.eCons = s'.eCons :=
  soundex_iff s s' h h'

/-- The code shows whether the pronunciation is a syllable: neither a blank nor a literal has three
characters with a final class at the end. -/
theorem C25_separate (s l : Syl) (t : Str) (h : ValidSyl s) (hl : IsBlank l ∨ l.literal ≠ [])
    (ht : soundexSyl l = .ok t) : soundexSyl s ≠ .ok t := by
  obtain ⟨a, c, d, _, _, hd, hs⟩ := soundex_valid s h
  have hd : d ≠ ch!")" := fun he => by
    have := (by decide +kernel : ∀ p ∈ soundexEndConsTbl, p.2 ≠ b!")") _ (mapAt_mem hd)
    rw [he] at this
    exact this rfl
  rw [hs]
  intro he
  cases he
  by_cases hb : IsBlank l
  · rw [soundexSyl, if_pos ((isBlank_iff l).mpr hb)] at ht; cases ht
  · have hl : l.literal ≠ [] := hl.resolve_left hb
    rw [soundexSyl, if_neg fun e => hb ((isBlank_iff l).mp e), if_pos ((isLiteral_iff l).mpr hl)] at ht
    rcases literal_cases l.literal with ⟨cs, _, h'⟩ | ⟨_, h'⟩
    · rw [h'] at ht
      have h2 : (b!"(" ++ enc8 cs ++ b!")").getLast? = some (ch!")") := by
        rw [List.getLast?_append]; rfl
      rw [Res.ok.inj ht] at h2
      exact hd (by simpa using h2)
    · rw [h'] at ht; cases ht

example : ValidSyl kaa ∧ ValidSyl ang ∧ soundexSyl kaa = .ok b!"ka_" ∧
    soundexSyl { kaa with iCons2 := SC.RA, vowel := VW.A, tone := .THO } = soundexSyl kaa ∧
    soundexSyl kaa ≠ soundexSyl ang := by decide +kernel

/-! ## C26: phonetic notation -/

/-- Phonetic texts are equal exactly for the same onset, vowel, final and tone. -/
theorem C26_iff (s s' : Syl) (h : ValidSyl s) (h' : ValidSyl s') :
    phoneticSyl s = phoneticSyl s' ↔ onset s = onset s' ∧
      s.vowel = s'.vowel ∧ s.eCons = s'.eCons ∧ s.tone = s'.tone :=
  phonetic_iff s s' h h'

/-- Syllables without a cluster on a silent initial have equal texts only if all components agree. -/
theorem C26_injective (s s' : Syl) (h : ValidSyl s) (h' : ValidSyl s')
    (hc : s.iCons1 = .A → s.iCons2 = SC.NONE) (hc' : s'.iCons1 = .A → s'.iCons2 = SC.NONE)
    (he : phoneticSyl s = phoneticSyl s') :
    s.iCons1 = s'.iCons1 ∧ s.iCons2 = s'.iCons2 ∧ s.vowel = s'.vowel ∧ s.eCons = s'.eCons ∧
      s.tone = s'.tone := by
  obtain ⟨h1, h2⟩ := (phonetic_iff s s' h h').mp he
  have on : ∀ s : Syl, (s.iCons1 = .A → s.iCons2 = SC.NONE) → onset s = (s.iCons1, s.iCons2) := by
    intro s hs
    unfold onset
    split
    · rename_i ha
      rw [hs ha, ha]
      rfl
    · rfl
  rw [on s hc, on s' hc', Prod.mk.injEq] at h1
  exact ⟨h1.1, h1.2, h2⟩

/-- The exception is needed. -/
theorem C26_silent : ∃ s s', ValidSyl s ∧ ValidSyl s' ∧ phoneticSyl s = phoneticSyl s' ∧
    s.iCons1 ≠ s'.iCons1 :=
  ⟨{ kaa with iCons1 := .A, iCons2 := SC.RA }, { kaa with iCons1 := .RA }, by decide +kernel⟩

example : ValidSyl kaa ∧ phoneticSyl kaa = .ok b!"kaa0" ∧
    phoneticSyl { kaa with iCons1 := .KHA, iCons2 := SC.RA, vowel := VW.UEAA, eCons := .KONG } =
      .ok b!"khrueaang0" := by decide +kernel

/-! ## C27: romanization -/

/-- Roman text depends on initial, cluster, vowel quality and final only. -/
theorem C27_syllable (s s' : Syl) (h : ValidSyl s) (h' : ValidSyl s') (h1 : s.iCons1 = s'.iCons1)
    (h2 : s.iCons2 = s'.iCons2) (h3 : shortOf s.vowel = shortOf s'.vowel) (h4 : s.eCons = s'.eCons) :
    romanSyl s = romanSyl s' := roman_congr s s' h h' h1 h2 h3 h4

/-- Hyphens by the Royal Institute rule, in pronunciations without blanks. -/
theorem C27_hyphen_partial (txt : Syl → Str) (l : SylString) (hl : l ≠ [])
    (h : ∀ s ∈ l, romanSyl s = .ok (txt s)) (hb : ∀ s ∈ l, ¬ IsBlank s) :
    romanStr false l = .ok (hyphenated txt l) := by
  obtain ⟨s, ss, rfl⟩ := List.exists_cons_of_ne_nil hl
  have hg : ∀ ss : List Syl, (∀ s ∈ ss, ¬ IsBlank s) → groups ss = [ss] := by
    intro ss
    induction ss with
    | nil => intro _; rfl
    | cons a ss ih =>
      intro hb
      rw [groups, if_neg (hb a (by simp)), ih fun s hs => hb s (by simp [hs])]
  have := romanLoop_groups txt ss (fun x hx _ => h x (by simp [hx])) s
  rw [hg ss fun x hx => hb x (by simp [hx])] at this
  simp [romanStr, h s (by simp), this, hyphenated_cons, joinWith]

/-- What is printed in general: the first syllable or blank and all up to the next blank follow the rule,
the rest has no hyphens. -/
theorem C27_exact (txt : Syl → Str) (s : Syl) (l : SylString) (h : ∀ x ∈ s :: l, romanSyl x = .ok (txt x)) :
    romanStr false (s :: l) = .ok (match groups l with
      | [] => []
      | g :: gs => joinWith 32 (hyphenated txt (s :: g) :: gs.map fun g => g.flatMap txt)) := by
  have := romanLoop_groups txt l (fun x hx _ => h x (by simp [hx])) s
  obtain ⟨g, gs, hg⟩ := List.exists_cons_of_ne_nil (groups_ne_nil l)
  rw [hg] at this ⊢
  simp only [romanStr, h s (by simp), this, hyphenated_cons, Bool.false_eq_true, if_false, Res.ok_bind,
    Res.pure_eq]
  rw [joinWith_head]

/-- The rule is not followed after a blank: "ka kaang", where the rule wants "ka ka-ang". -/
theorem C27_hyphen_false : ∃ l txt, (∀ s ∈ l, romanSyl s = .ok (txt s)) ∧
    romanStr false l ≠ .ok (joinWith 32 ((groups l).map (hyphenated txt))) :=
  ⟨[kaa, bl, kaa, ang], fun s => match romanSyl s with | .ok t => t | _ => [], by decide +kernel⟩

/-- A leading blank counts as a syllable: " -ang", where there must be no hyphen. -/
theorem C27_leading_false : ∃ (l : SylString) (txt : Syl → Str), (∀ s ∈ l, romanSyl s = .ok (txt s)) ∧
    (∀ g ∈ groups l, g.length ≤ 1) ∧
    ∃ t, romanStr false l = .ok t ∧ ch!"-" ∈ t ∧ ∀ s ∈ l, ch!"-" ∉ txt s :=
  ⟨[bl, ang], fun s => match romanSyl s with | .ok t => t | _ => [], by decide +kernel, by decide,
    b!" -ang", by decide +kernel, by decide, by decide +kernel⟩

/-- Capitalization changes the first letter only. -/
theorem C27_capital (l : SylString) :
    romanStr true l = romanStr false l >>= fun t => .ok (upperFirst t) := roman_capital l

/-- A DAG is printed as one line per maximal path. -/
theorem C27_dag (cap : Bool) (txt : List Syl → Str) (d : PronunDAG) (hb : Built d)
    (ha : Acyclic d) (h : ∀ p, MaxPath d 0 p → romanStr cap (p.map Entry.val) = .ok (txt (p.map Entry.val))) :
    ∃ ps : List (List (Entry Syl)), ps.Nodup ∧ (∀ p, p ∈ ps ↔ MaxPath d 0 p) ∧
      romanDag cap d = .ok (ps.flatMap fun p => txt (p.map Entry.val) ++ b!"\n") := by
  obtain ⟨ps, h1, h2, h3⟩ := C15_listing d hb ha
  refine ⟨ps, h2, h3, ?_⟩
  rw [romanDag, h1, Res.ok_bind, romanList, linesOf_ok _ txt, List.flatMap_map]
  intro l hl
  obtain ⟨p, hp, rfl⟩ := List.mem_map.mp hl
  exact h p ((h3 p).mp hp)

example : (∀ s ∈ [kaa, ang, kaa], ¬ IsBlank s) ∧ romanStr true [kaa, ang, kaa] = .ok b!"Ka-angka" ∧
    shortOf VW.AA = shortOf VW.A := by decide +kernel

/-! ## C28: Thai respelling -/

/-- The respelling of a valid syllable is Thai text and, read by the tone rules, has the syllable's tone
(a dead syllable cannot have the middle tone). -/
theorem C28_tone (s : Syl) (h : ValidSyl s) :
    ∃ t cs, thaiSyl s = .ok t ∧ utf8Decode t = some cs ∧ (∀ c ∈ cs, 0xe00 ≤ c ∧ c < 0xe80) ∧
      (¬ ((isStop s.eCons || (spelledShort s && decide (s.eCons = .NONE))) = true ∧ s.tone = .SAMAN) →
        readTone cs (spelledShort s) s.eCons = some s.tone) := by
  obtain ⟨t, ht, cs, cls, rfl, hch, hcls, hr⟩ := (Res.sat_iff _ _).mp (thai_spec s h)
  refine ⟨_, cs, ht, ?_, hch, fun hn => ?_⟩
  · simpa [utf8Decode] using utf8Decode_enc8 cs
      (fun c hc => isScalar_iff.mpr (.inl (by have := hch c hc; omega))) []
  · rw [isDead_eq] at hr
    rw [readTone, hcls]
    exact hr hn

/-- The middle tone on a dead syllable is respelled with another tone. -/
theorem C28_dead_false : ∃ s t cs, ValidSyl s ∧ thaiSyl s = .ok t ∧ utf8Decode t = some cs ∧
    readTone cs (spelledShort s) s.eCons ≠ some s.tone :=
  ⟨{ kaa with eCons := .KOK }, b!"กาก", u!"กาก", by decide +kernel⟩

example : ValidSyl { kaa with tone := .THO } ∧ thaiSyl { kaa with tone := .THO } = .ok b!"ก้า" ∧
    readTone u!"ก้า" false .NONE = some .THO ∧ readTone u!"ข้า" false .NONE = some .THO ∧
    readTone u!"ค้า" false .NONE = some .TRI ∧ readTone u!"คะ" true .NONE = some .TRI := by
  decide +kernel

end Thpronun
