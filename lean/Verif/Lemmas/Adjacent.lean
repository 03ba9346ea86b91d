import Verif.Spec.Adjacent
import Verif.Lemmas.Shift
import Mathlib.Logic.Relation

/-! # The characters of a spelled syllable follow each other as in the table -/

namespace Thpronun.Side
open Spec

/-! ## The table -/

/-- Anything that can begin a syllable can follow. -/
def Free (a : Nat) : Prop := a ∉ u!"ฦัื็" ∧ ¬ IsLead a

/-- A consonant or "ฤ". -/
def CR (a : Nat) : Prop := IsCons a ∨ a = ch!"ฤ"

/-- A consonant, "ฤ" or a tone mark. -/
def CRT (a : Nat) : Prop := CR a ∨ IsMark a

theorem CRT.free {a : Nat} (h : CRT a) : Free a := by
  simp only [CRT, CR, IsCons, IsMark, Free, IsLead, List.mem_cons, List.not_mem_nil, or_false] at h ⊢
  omega

theorem CR.free {a : Nat} (h : CR a) : Free a := CRT.free (.inl h)

theorem cons_free {a : Nat} (h : IsCons a) : Free a := CR.free (.inl h)

theorem Free.ends {a : Nat} (h : Free a) : Ends a := by
  simp only [Free, Ends, IsLead, List.mem_cons, List.not_mem_nil, or_false] at h ⊢
  omega

instance (a) : Decidable (Free a) := by unfold Free; infer_instance
instance (a) : Decidable (CR a) := by unfold CR; infer_instance
instance (a) : Decidable (CRT a) := by unfold CRT; infer_instance

theorem follows_cons {a b : Nat} (hb : IsCons b) (h1 : a = ch!"ั" → b ∉ u!"หอฮ") (h2 : a ∈ u!"ื็" → b ∉ u!"หฮ") :
    Follows a b := .inr (.inr (.inr (.inr (.inr (.inr (.inr (.inl ⟨hb, h1, h2⟩)))))))

theorem follows_lead {a b : Nat} (hb : IsLead b) (h1 : a ∉ u!"ฦั็") (h2 : ¬ IsLead a) :
    Follows a b := .inr (.inr (.inr (.inr (.inr (.inr (.inr (.inr (.inl ⟨hb, h1, h2⟩))))))))

theorem Free.begins {a b : Nat} (h : Free a) (hb : Begins b) : Follows a b := by
  obtain ⟨h1, h2⟩ := h
  simp only [List.mem_cons, List.not_mem_nil, or_false] at h1
  rcases hb with hb | hb | hb
  · refine follows_cons hb (fun e => ?_) (fun e => ?_)
    · omega
    · simp only [List.mem_cons, List.not_mem_nil, or_false] at e
      omega
  · refine follows_lead hb ?_ h2
    simp only [List.mem_cons, List.not_mem_nil, or_false]
    omega
  · refine .inr (.inr (.inr (.inr (.inr (.inr (.inr (.inr (.inr ⟨hb, ?_, h2⟩))))))))
    simp only [List.mem_cons, List.not_mem_nil, or_false]
    omega

theorem Free.cons {a b : Nat} (h : Free a) (hb : IsCons b) : Follows a b := h.begins (.inl hb)

theorem follows_fin {a b : Nat} (hb : IsCons b) (h : b ∉ u!"หอฮ") : Follows a b := by
  refine follows_cons hb (fun _ => h) fun _ => ?_
  simp only [List.mem_cons, List.not_mem_nil, or_false] at h ⊢
  omega

theorem cons_karan {a : Nat} (h : IsCons a) : Follows a ch!"์" :=
  .inr (.inr (.inr (.inr (.inr (.inr (.inl ⟨rfl, .inl h⟩))))))

theorem iu_karan {a : Nat} (h : IU a) : Follows a ch!"์" := by
  rcases h with rfl | rfl <;> decide

theorem CR.sign {a b : Nat} (h : CR a) (hb : b ∈ u!"ัิีึืุู") : Follows a b :=
  .inr (.inr (.inr (.inr (.inl ⟨hb, h⟩))))

theorem CR.mark {a b : Nat} (h : CR a) (hb : IsMark b) : Follows a b := by
  refine .inr (.inr (.inr (.inr (.inr (.inl ⟨hb, ?_⟩)))))
  rcases h with h | h
  · exact .inl h
  · exact .inr (.inl h)

theorem sign_mark {a b : Nat} (h : a ∈ u!"ัิีึืุู") (hb : IsMark b) : Follows a b :=
  .inr (.inr (.inr (.inr (.inr (.inl ⟨hb, .inr (.inr h)⟩)))))

theorem CRT.vowel {a b : Nat} (h : CRT a) (hb : b ∈ u!"ะาำ็") : Follows a b := by
  have h' : IsCons a ∨ a = ch!"ฤ" ∨ IsMark a := by
    rcases h with (h | h) | h
    · exact .inl h
    · exact .inr (.inl h)
    · exact .inr (.inr h)
  have h'' : ∀ x, IsCons a ∨ a ∈ [ch!"ฤ", x] ∨ IsMark a := fun x =>
    h'.imp id fun h => h.imp (fun e => List.mem_cons.mpr (.inl e)) id
  simp only [List.mem_cons, List.not_mem_nil, or_false] at hb
  rcases hb with rfl | rfl | rfl | rfl
  · exact .inr (.inr (.inl ⟨rfl, h'' _⟩))
  · exact .inr (.inl ⟨rfl, h'' _⟩)
  · exact .inr (.inr (.inr (.inl ⟨by decide, h'⟩)))
  · exact .inr (.inr (.inr (.inl ⟨by decide, h'⟩)))

theorem cons_of {ct : CType} (hct : ct.Ok) {c : Nat} (h : ct.isCons c = true) : IsCons c := hct.cons c h
theorem mark_of {ct : CType} (hct : ct.Ok) {c : Nat} (h : ct.isTone c = true) : IsMark c := hct.tone c h
theorem lead_of {ct : CType} (hct : ct.Ok) {c : Nat} (h : ct.isLdVowel c = true) : IsLead c := hct.ld c h

theorem fin_not {c : Nat} {f : EndConsClass} (h : c ∈ finalLetters f) (hf : f ≠ .NONE) : c ∉ u!"หอฮ" := by
  cases f <;> first | exact absurd rfl hf | (simp only [finalLetters, List.mem_cons, List.not_mem_nil, or_false] at h ⊢; omega)

/-! ## Stretches of text -/

section
variable {ct : CType} {w : U16Str} {t : Nat}

/-- The character at `m` can follow the one before it. -/
def OkAt (ct : CType) (w : U16Str) (t m : Nat) : Prop :=
  ∃ a b, w[m - 1]? = some a ∧ w[m]? = some b ∧ Follows a b ∧ (m < t ∨ ct.isCons b = true)

/-- The same for all from `i` to before `k`. -/
def Seg (ct : CType) (w : U16Str) (t i k : Nat) : Prop := ∀ m, i ≤ m → m < k → OkAt ct w t m

/-- The character before `m`. -/
def Pv (w : U16Str) (m : Nat) (A : Nat → Prop) : Prop := ∃ a, w[m - 1]? = some a ∧ A a

/-- The end of a syllable at `k`. -/
def EndAt (w : U16Str) (t k : Nat) : Prop :=
  ∃ a, w[k - 1]? = some a ∧ (Free a ∨ (k < t ∧ ∃ b, w[k]? = some b ∧ Follows a b) ∨ (k = t ∧ Ends a))

/-- A rime from `j` on. -/
def Good (ct : CType) (w : U16Str) (t j : Nat) (r : Rime) : Prop := Seg ct w t j r.stop ∧ EndAt w t r.stop

theorem seg_nil {i : Nat} : Seg ct w t i i := fun _ h1 h2 => by omega

theorem seg_cons {i k : Nat} (h : OkAt ct w t i) (h' : Seg ct w t (i + 1) k) : Seg ct w t i k := fun m h1 h2 => by
  rcases Nat.eq_or_lt_of_le h1 with rfl | h1
  · exact h
  · exact h' m h1 h2

theorem seg_append {i j k : Nat} (h : Seg ct w t i j) (h' : Seg ct w t j k) : Seg ct w t i k := fun m h1 h2 => by
  rcases Nat.lt_or_ge m j with h3 | h3
  · exact h m h1 h3
  · exact h' m h3 h2

theorem good_cons {j : Nat} {r : Rime} (h : OkAt ct w t j) (h' : Good ct w t (j + 1) r) : Good ct w t j r :=
  ⟨seg_cons h h'.1, h'.2⟩

theorem good_append {j k : Nat} {r : Rime} (h : Seg ct w t j k) (h' : Good ct w t k r) : Good ct w t j r :=
  ⟨seg_append h h'.1, h'.2⟩

theorem pv_at {j b : Nat} {A : Nat → Prop} (h : At w t j b) (hA : A b) : Pv w (j + 1) A := ⟨b, h.2, hA⟩

theorem Pv.imp {j : Nat} {A B : Nat → Prop} (h : Pv w j A) (hAB : ∀ a, A a → B a) : Pv w j B :=
  let ⟨a, h1, h2⟩ := h
  ⟨a, h1, hAB a h2⟩

theorem ok_pv {j b : Nat} {A : Nat → Prop} (h : Pv w j A) (hb : At w t j b) (hf : ∀ a, A a → Follows a b) :
    OkAt ct w t j :=
  let ⟨a, h1, h2⟩ := h
  ⟨a, b, h1, hb.2, hf a h2, .inl hb.1⟩

theorem Pv.endAt {k : Nat} (h : Pv w k Free) : EndAt w t k :=
  let ⟨a, h1, h2⟩ := h
  ⟨a, h1, .inl h2⟩

theorem at_eq {i a b : Nat} (h : At w t i a) (h' : At w t i b) : a = b := Option.some.inj (h.2.symm.trans h'.2)

variable (hct : ct.Ok)
include hct

theorem silent_seg {j : Nat} (h : Pv w j Free) (hs : Silent ct w t j) : Seg ct w t j (j + 2) ∧ Pv w (j + 2) Free := by
  obtain ⟨c, h1, h2, h3⟩ := hs
  have hc := cons_of hct h2
  exact ⟨seg_cons (ok_pv h h1 fun a ha => ha.cons hc) (seg_cons (ok_pv (pv_at h1 hc) h3 fun a ha => cons_karan ha) seg_nil),
    pv_at h3 (by decide)⟩

theorem silent2_seg {j : Nat} {A : Nat → Prop} (h : Pv w j Free) (hs : Silent2 ct w t A j)
    (hA : ∀ d, A d → ct.isCons d = true ∨ IU d) : Seg ct w t j (j + 3) ∧ Pv w (j + 3) Free := by
  obtain ⟨c, d, h1, h2, h3, h4, h5⟩ := hs
  have hc := cons_of hct h2
  have hd := hA d h4
  have k1 : Follows c d := by
    rcases hd with hd | hd
    · exact (cons_free hc).cons (cons_of hct hd)
    · refine CR.sign (.inl hc) ?_
      rcases hd with rfl | rfl <;> decide
  have k2 : Follows d ch!"์" := by
    rcases hd with hd | hd
    · exact cons_karan (cons_of hct hd)
    · exact iu_karan hd
  exact ⟨seg_cons (ok_pv h h1 fun a ha => ha.cons hc)
    (seg_cons (ok_pv (pv_at (A := fun a => a = c) h1 rfl) h3 fun a ha => ha ▸ k1)
      (seg_cons (ok_pv (pv_at (A := fun a => a = d) h3 rfl) h5 fun a ha => ha ▸ k2) seg_nil)), pv_at h5 (by decide)⟩

theorem skip_seg {j k : Nat} (h : Pv w j Free) (hs : Skip ct w t j k) : Seg ct w t j k ∧ Pv w k Free := by
  rcases hs with ⟨h1, rfl⟩ | ⟨-, rfl⟩
  · exact silent_seg hct h h1
  · exact ⟨seg_nil, h⟩

theorem skipIU_seg {j k : Nat} (h : Pv w j Free) (hs : SkipIU ct w t j k) : Seg ct w t j k ∧ Pv w k Free := by
  rcases hs with ⟨h1, rfl⟩ | ⟨-, rfl⟩
  · exact silent2_seg hct h h1 fun d hd => .inr hd
  · exact ⟨seg_nil, h⟩

theorem skipAny_seg {j k : Nat} (h : Pv w j Free) (hs : SkipAny ct w t j k) : Seg ct w t j k ∧ Pv w k Free := by
  rcases hs with ⟨h1, rfl⟩ | ⟨-, h1, rfl⟩ | ⟨-, -, rfl⟩
  · exact silent_seg hct h h1
  · exact silent2_seg hct h h1 fun d hd => hd
  · exact ⟨seg_nil, h⟩

theorem open_good {j : Nat} {v : Vowel} {f : EndConsClass} {m : Tone} {r : Rime} (h : Pv w j Free)
    (ho : Open ct w t j v f m r) : Good ct w t j r := by
  obtain ⟨k, h1, rfl⟩ := ho
  have h2 := skip_seg hct h h1
  exact ⟨h2.1, h2.2.endAt⟩

theorem final_ok {j c : Nat} {excl : U16Str} {f : EndConsClass} (h : Pv w j fun _ => True)
    (hc : FinalAt ct w t j excl c f) : OkAt ct w t j ∧ Pv w (j + 1) Free ∧ Follows (w[j - 1]?.getD 0) c := by
  obtain ⟨h1, h2, h3, h4, -⟩ := hc
  have hf : ∀ a, Follows a c := fun a => follows_fin (cons_of hct h2) (fin_not h3 h4)
  exact ⟨ok_pv h h1 fun a _ => hf a, pv_at h1 (cons_free (cons_of hct h2)), hf _⟩

theorem shut_good {j : Nat} {excl : U16Str} {v : Vowel} {m : Tone} {r : Rime} (h : Pv w j fun _ => True)
    (hs : Shut ct w t j excl v m r) : Good ct w t j r := by
  obtain ⟨k, b, f, ⟨c, h1, -, h2⟩, rfl⟩ := hs
  obtain ⟨h3, h4, -⟩ := final_ok hct h h1
  have h5 := skipAny_seg hct h4 h2
  exact ⟨seg_cons h3 h5.1, h5.2.endAt⟩

theorem shutX_good {j : Nat} {excl : U16Str} {v : Vowel} {m : Tone} {r : Rime} (h : Pv w j fun _ => True)
    (hs : ShutX ct w t j excl v m r) : Good ct w t j r := by
  obtain ⟨k, b, f, ⟨c, h1, h2⟩, rfl⟩ := hs
  obtain ⟨h3, h4, h6⟩ := final_ok hct h h1
  rcases h2 with ⟨-, h2⟩ | ⟨-, ⟨-, rfl, -, h2⟩ | ⟨-, rfl, -⟩⟩
  · have h5 := skipAny_seg hct h4 h2
    exact ⟨seg_cons h3 h5.1, h5.2.endAt⟩
  · have hc := cons_of hct h1.2.1
    have hp : Pv w (j + 1) IsCons := pv_at h1.1 hc
    rcases h2 with ⟨h2, -⟩ | ⟨d, h2, h5, -⟩
    · exact ⟨seg_cons h3 (seg_cons (ok_pv hp h2 fun a ha => (cons_free ha).cons (by decide)) seg_nil),
        (pv_at (A := Free) h2 (by decide)).endAt⟩
    · have hd : d ∈ u!"ัิีึืุู" := by rcases h5 with rfl | rfl <;> decide
      refine ⟨seg_cons h3 (seg_cons (ok_pv hp h2 fun a ha => CR.sign (.inl ha) hd) seg_nil),
        (pv_at (A := Free) h2 ?_).endAt⟩
      rcases h5 with rfl | rfl <;> decide
  · obtain ⟨a, ha, -⟩ := h
    refine ⟨seg_nil, a, ha, .inr (.inl ⟨h1.1.1, c, h1.1.2, ?_⟩)⟩
    rw [ha] at h6
    exact h6

theorem mark_seg {j k : Nat} {m : Tone} {A : Nat → Prop} (h : Pv w j A) (hA : ∀ a, A a → ∀ b, IsMark b → Follows a b)
    (hm : MarkAt ct w t j m k) : Seg ct w t j k ∧ Pv w k fun a => A a ∨ IsMark a := by
  rcases hm with ⟨c, h1, h2, -, rfl⟩ | ⟨-, -, rfl⟩
  · have hc := mark_of hct h2
    exact ⟨seg_cons (ok_pv h h1 fun a ha => hA a ha c hc) seg_nil, pv_at h1 (.inr hc)⟩
  · exact ⟨seg_nil, h.imp fun a ha => .inl ha⟩

/-! ## Onsets -/

theorem onset_seg {i : Nat} {l : Bool} {o : Onset} (h : OnsetAt ct w t i l o) :
    (∃ c, w[i]? = some c ∧ ct.isCons c = true) ∧ Seg ct w t (i + 1) o.stop ∧ Pv w o.stop CR ∧ i < o.stop := by
  obtain ⟨c, snd, cls, h1, ⟨hc, -⟩, h2⟩ := h
  have hc' := cons_of hct hc
  refine ⟨⟨c, h1, hc⟩, ?_⟩
  rcases h2 with rfl | ⟨d, snd2, cls2, h3, ⟨hd, -⟩, -, h4⟩ | ⟨⟨h3, -⟩, h4⟩
  · exact ⟨seg_nil, ⟨c, h1, .inl hc'⟩, Nat.lt_succ_self _⟩
  · have hs : o.stop = i + 2 := by
      rcases h4 with ⟨_, _, -, -, -, rfl⟩ | ⟨-, -, -, rfl⟩ | ⟨-, -, rfl⟩ | rfl <;> rfl
    have hd' := cons_of hct hd
    rw [hs]
    exact ⟨seg_cons ⟨c, d, h1, h3.2, (cons_free hc').cons hd', .inl h3.1⟩ seg_nil, pv_at h3 (.inl hd'), by omega⟩
  · have hs : o.stop = i + 2 := by
      rcases h4 with ⟨-, rfl⟩ | ⟨-, rfl | rfl⟩ | ⟨-, rfl⟩ | ⟨-, rfl⟩ | ⟨-, -, rfl⟩ | ⟨-, v, -, ⟨-, rfl⟩ | rfl⟩ <;> rfl
    rw [hs]
    exact ⟨seg_cons ⟨c, _, h1, h3.2, (cons_free hc').begins (by decide), .inl h3.1⟩ seg_nil, pv_at h3 (.inr rfl), by omega⟩

theorem whole_good {i : Nat} {o : Onset} {r : Rime} (h : WholeAt ct w t i o r) : Good ct w t (i + 1) r ∧ i < r.stop := by
  obtain ⟨c, snd, cls, h1, ⟨hc, -⟩, h2⟩ := h
  have hc' := cons_of hct hc
  have hp : Pv w (i + 1) IsCons := ⟨c, h1, hc'⟩
  rcases h2 with ⟨-, -, rfl⟩ | ⟨-, -, -, -, -, rfl⟩ | ⟨h3, -, -, ⟨-, -, -, rfl⟩ | ⟨h4, -, -, rfl⟩ | ⟨h4, -, -, rfl⟩⟩ |
    ⟨⟨h3, -⟩, -, -, rfl⟩
  · exact ⟨⟨seg_nil, (hp.imp fun a ha => cons_free ha).endAt⟩, Nat.lt_succ_self _⟩
  · exact ⟨⟨seg_nil, (hp.imp fun a ha => cons_free ha).endAt⟩, Nat.lt_succ_self _⟩
  · exact ⟨⟨seg_cons (ok_pv hp h3 fun a ha => (cons_free ha).cons (by decide)) seg_nil, (pv_at (A := Free) h3 (by decide)).endAt⟩,
      by show i < i + 2; omega⟩
  · exact ⟨⟨seg_cons (ok_pv hp h3 fun a ha => (cons_free ha).cons (by decide))
      (seg_cons (ok_pv (pv_at (A := CR) h3 (.inl (by decide))) h4 fun a ha => ha.sign (by decide)) seg_nil),
      (pv_at (A := Free) h4 (by decide)).endAt⟩, by show i < i + 3; omega⟩
  · exact ⟨⟨seg_cons (ok_pv hp h3 fun a ha => (cons_free ha).cons (by decide))
      (seg_cons (ok_pv (pv_at (A := CRT) h3 (.inl (.inl (by decide)))) h4 fun a ha => ha.vowel (by decide)) seg_nil),
      (pv_at (A := Free) h4 (by decide)).endAt⟩, by show i < i + 3; omega⟩
  · exact ⟨⟨seg_cons (ok_pv hp h3 fun a ha => (cons_free ha).begins (by decide)) seg_nil, (pv_at (A := Free) h3 (by decide)).endAt⟩,
      by show i < i + 2; omega⟩

/-! ## Rimes -/

theorem han_good {j : Nat} {r : Rime} (hj : Pv w j CR) (h : HanRime ct w t j r) : Good ct w t j r := by
  obtain ⟨h1, m, k, h2, h3⟩ := h
  obtain ⟨h4, h5⟩ := mark_seg hct (pv_at (A := fun a => a = ch!"ั") h1 rfl)
    (fun a ha b hb => sign_mark (by rw [ha]; decide) hb) h2
  refine good_cons (ok_pv hj h1 fun a ha => ha.sign (by decide)) (good_append h4 ?_)
  have any := h5.imp (B := fun _ => True) fun _ _ => trivial
  have wo : At w t k ch!"ว" → OkAt ct w t k := fun h => ok_pv any h fun a _ => follows_fin (by decide) (by decide)
  rcases h3 with ⟨k1, k2, k3⟩ | ⟨k1, -, k3⟩ | ⟨-, -, k3⟩ | ⟨-, -, k3⟩
  · exact good_cons (wo k1) (good_cons (ok_pv (pv_at (A := CRT) k1 (.inl (.inl (by decide)))) k2 fun a ha => ha.vowel (by decide))
      (open_good hct (pv_at k2 (by decide)) k3))
  · exact good_cons (wo k1) (open_good hct (pv_at k1 (by decide)) k3)
  · exact shutX_good hct any k3
  · exact shut_good hct any k3

theorem signFinal_good {k : Nat} {v : Vowel} {m : Tone} {r : Rime}
    (hk : Pv w k fun a => v = VW.UEE → Follows a ch!"อ") (h : SignFinal ct w t k v m r) : Good ct w t k r := by
  have any := hk.imp (B := fun _ => True) fun _ _ => trivial
  rcases h.2 with ⟨k0, k1, k2⟩ | ⟨-, -, k1⟩ | ⟨-, -, k1⟩ | ⟨-, -, -, k1⟩
  · exact good_cons (ok_pv hk k1 fun a ha => ha k0) (open_good hct (pv_at k1 (by decide)) k2)
  · exact shut_good hct any k1
  · exact shut_good hct any k1
  · exact shutX_good hct any k1

theorem sign_good {j : Nat} {r : Rime} (ht : t ≤ w.length) (hj : Pv w j CR) (h : SignRime ct w t j r) : Good ct w t j r := by
  obtain ⟨c, v, m, k, h1, -, h2, h3, h4⟩ := h
  have hc : c ∈ u!"ิีึืุู" := by
    have : c ∈ signVowels.map (·.1) := List.mem_map.mpr ⟨_, h2, rfl⟩
    exact this
  have hc' : c ∈ u!"ัิีึืุู" := List.mem_cons_of_mem _ hc
  have hv : v = VW.UEE ↔ c = ch!"ื" := by
    have : ∀ x ∈ signVowels, x.2 = VW.UEE ↔ x.1 = ch!"ื" := by decide
    exact this _ h2
  obtain ⟨h5, h6⟩ := mark_seg hct (pv_at (A := fun a => a = c) h1 rfl) (fun a ha b hb => sign_mark (ha ▸ hc') hb) h3
  refine good_cons (ok_pv hj h1 fun a ha => ha.sign hc') (good_append h5 ?_)
  have sv : Pv w k fun a => v = VW.UEE → Follows a ch!"อ" := h6.imp fun a ha e => by
    rcases ha with rfl | ha
    · rw [hv.mp e]; decide
    · exact Free.cons (CRT.free (.inr ha)) (by decide)
  have hkt : k ≤ t := by
    have := h1.1
    rcases h3 with ⟨_, k1, -, -, rfl⟩ | ⟨-, -, rfl⟩
    · exact k1.1
    · exact this
  rcases h4 with ⟨-, -, h4⟩ | ⟨hne, h4⟩
  · exact signFinal_good hct sv h4
  by_cases hcu : c = ch!"ื"
  · have none : ∀ d, At w t k d → ct.isLdVowel d = true := fun d hd => by
      by_contra hl
      exact hne ⟨hv.mpr hcu, d, hd, by simpa using hl⟩
    have nocons : ∀ d, At w t k d → ct.isCons d = true → False := fun d hd hcd => by
      have k1 := cons_of hct hcd
      have k2 := lead_of hct (none d hd)
      simp only [IsCons, IsLead] at k1 k2
      omega
    have stop : Good ct w t k ⟨k, false, v, .NONE, m⟩ := by
      refine ⟨seg_nil, ?_⟩
      obtain ⟨a, ha, ha'⟩ := h6
      rcases ha' with rfl | ha'
      · refine ⟨a, ha, ?_⟩
        rcases Nat.eq_or_lt_of_le hkt with e | e
        · exact .inr (.inr ⟨e, by rw [hcu]; decide⟩)
        · have hw : w[k]? = some w[k] := List.getElem?_eq_getElem (by omega)
          refine .inr (.inl ⟨e, _, hw, ?_⟩)
          rw [hcu]
          exact follows_lead (lead_of hct (none _ ⟨e, hw⟩)) (by decide) (by decide)
      · exact ⟨a, ha, .inl (CRT.free (.inr ha'))⟩
    rcases h4 with ⟨⟨d, k1, k2, -⟩, -⟩ | ⟨-, ⟨d, _, k1, k2, -⟩, -⟩ | ⟨-, -, rfl | h4⟩
    · exact (nocons d k1 k2).elim
    · exact (nocons d k1 k2).elim
    · exact stop
    · exact signFinal_good hct sv h4
  · have fr : Pv w k Free := h6.imp fun a ha => by
      rcases ha with rfl | ha
      · simp only [Free, IsLead, List.mem_cons, List.not_mem_nil, or_false] at hc ⊢
        omega
      · exact CRT.free (.inr ha)
    rcases h4 with ⟨k1, rfl | h4⟩ | ⟨-, k1, rfl⟩ | ⟨-, -, rfl | h4⟩
    · have k2 := silent_seg hct fr k1
      exact ⟨k2.1, k2.2.endAt⟩
    · have k2 := silent_seg hct fr k1
      exact good_append k2.1 (signFinal_good hct (k2.2.imp fun a _ e => absurd (hv.mp e) hcu) h4)
    · have k2 := silent2_seg hct fr k1 fun d hd => .inr hd
      exact ⟨k2.1, k2.2.endAt⟩
    · exact ⟨seg_nil, fr.endAt⟩
    · exact signFinal_good hct sv h4

theorem shortO_good {j : Nat} {r : Rime} (hj : Pv w j CR) (h : ShortORime ct w t j r) : Good ct w t j r := by
  obtain ⟨h1, h2, k, h3, h4⟩ := h
  have k1 := skip_seg hct (pv_at (A := Free) h2 (by decide)) h3
  exact good_cons (ok_pv hj h1 fun a ha => CRT.vowel (.inl ha) (by decide))
    (good_cons (ok_pv (pv_at (A := fun a => a = ch!"็") h1 rfl) h2 fun a ha => ha ▸ by decide)
      (good_append k1.1 (shut_good hct (k1.2.imp fun _ _ => trivial) h4)))

theorem ro_good {o : Onset} {k : Nat} {m : Tone} {r : Rime} (hk : Pv w k CRT) (h : RoRime ct w t o k m r) :
    Good ct w t k r := by
  obtain ⟨h1, h2⟩ := h
  refine good_cons (ok_pv hk h1 fun a ha => ha.free.cons (by decide)) ?_
  have hp : Pv w (k + 1) Free := pv_at h1 (by decide)
  rcases h2 with ⟨-, h2⟩ | ⟨k', h2, h3, h4⟩
  · exact open_good hct hp h2
  · have h5 : Seg ct w t (k + 1) k' ∧ Pv w k' Free := by
      split at h2
      · subst h2; exact ⟨seg_nil, hp⟩
      · exact skip_seg hct hp h2
    refine good_append h5.1 (good_cons (ok_pv h5.2 h3 fun a ha => ha.cons (by decide)) ?_)
    have hp' : Pv w (k' + 1) Free := pv_at h3 (by decide)
    rcases h4 with h4 | ⟨-, h4⟩
    · exact open_good hct hp' h4
    · exact shutX_good hct (hp'.imp fun _ _ => trivial) h4

theorem crt_mark {j k : Nat} {m : Tone} (hj : Pv w j CR) (h : MarkAt ct w t j m k) : Seg ct w t j k ∧ Pv w k CRT :=
  mark_seg hct hj (fun _ ha _ hb => ha.mark hb) h

theorem plain_good {o : Onset} {l : Bool} {j : Nat} {r : Rime} (hj : Pv w j CR) (h : PlainRime ct w t o l j r) :
    Good ct w t j r := by
  obtain ⟨m, k, h1, h2⟩ := h
  obtain ⟨h3, h4⟩ := crt_mark hct hj h1
  refine good_append h3 ?_
  have any := h4.imp (B := fun _ => True) fun _ _ => trivial
  have after : ∀ {k' c}, At w t k' c → Free c → ∀ {j}, Skip ct w t (k' + 1) j → Seg ct w t (k' + 1) j ∧ Pv w j fun _ => True :=
    fun hc hf _ hs => (skip_seg hct (pv_at hc hf) hs).imp id fun h => h.imp fun _ _ => trivial
  rcases h2 with ⟨k1, k2⟩ | ⟨k1, k2 | ⟨k', k2, k3⟩⟩ | ⟨k1, k2⟩ | ⟨k1, k2⟩ | ⟨k1, k2 | ⟨k', k2, k3⟩⟩ | h2 |
    ⟨-, -, -, h2⟩ | ⟨v, c, -, -, -, -, rfl | h2⟩
  · exact good_cons (ok_pv h4 k1 fun a ha => ha.vowel (by decide)) (open_good hct (pv_at k1 (by decide)) k2)
  · exact good_cons (ok_pv h4 k1 fun a ha => ha.vowel (by decide)) (open_good hct (pv_at k1 (by decide)) k2)
  · have k4 := after k1 (by decide) k2
    exact good_cons (ok_pv h4 k1 fun a ha => ha.vowel (by decide)) (good_append k4.1 (shutX_good hct k4.2 k3))
  · exact good_cons (ok_pv h4 k1 fun a ha => ha.vowel (by decide)) (open_good hct (pv_at k1 (by decide)) k2)
  · exact good_cons (ok_pv h4 k1 fun a ha => ha.free.cons (by decide)) (shut_good hct (pv_at k1 trivial) k2)
  · exact good_cons (ok_pv h4 k1 fun a ha => ha.free.cons (by decide)) (open_good hct (pv_at k1 (by decide)) k2)
  · have k4 := after k1 (by decide) k2
    exact good_cons (ok_pv h4 k1 fun a ha => ha.free.cons (by decide)) (good_append k4.1 (shut_good hct k4.2 k3))
  · exact ro_good hct h4 h2
  · exact shut_good hct any h2
  · exact ⟨seg_nil, (h4.imp fun a ha => ha.free).endAt⟩
  · exact shutX_good hct any h2

theorem cons_good {o : Onset} {l : Bool} {r : Rime} (ht : t ≤ w.length) (hj : Pv w o.stop CR) (h : ConsRime ct w t o l r) :
    Good ct w t o.stop r := by
  rcases h with h | h | h | h
  · exact han_good hct hj h
  · exact sign_good hct ht hj h
  · exact shortO_good hct hj h
  · exact plain_good hct hj h

/-! ## Rimes after a leading vowel -/

theorem mid_good {sign mid : Nat} {short long : Vowel} {j : Nat} {full : Bool} {r : Rime} (hs : sign ∈ u!"ัิีึืุู")
    (hm : IsCons mid) (hsm : Follows sign mid) (hj : Pv w j CR) (h : MidRime ct w t sign mid short long j full r) :
    Good ct w t j r := by
  obtain ⟨h1, m, k, h2, h3, h4⟩ := h
  obtain ⟨h5, h6⟩ := mark_seg hct (pv_at (A := fun a => a = sign) h1 rfl) (fun a ha b hb => sign_mark (ha ▸ hs) hb) h2
  refine good_cons (ok_pv hj h1 fun a ha => ha.sign hs) (good_append h5 (good_cons (ok_pv h6 h3 fun a ha => ?_) ?_))
  · rcases ha with rfl | ha
    · exact hsm
    · exact Free.cons (CRT.free (.inr ha)) hm
  have hp : Pv w (k + 1) IsCons := pv_at h3 hm
  have hf := hp.imp fun _ ha => cons_free ha
  rcases h4 with ⟨k1, k2⟩ | ⟨-, k2 | ⟨k', k2, k3⟩⟩
  · exact good_cons (ok_pv hp k1 fun a ha => CRT.vowel (.inl (.inl ha)) (by decide)) (open_good hct (pv_at k1 (by decide)) k2)
  · exact open_good hct hf k2
  · have k4 := skip_seg hct hf k2
    have k5 := k4.2.imp (B := fun _ => True) fun _ _ => trivial
    refine good_append k4.1 ?_
    split at k3
    · exact shutX_good hct k5 k3
    · exact shut_good hct k5 k3

theorem e_good {o : Onset} {r : Rime} (hj : Pv w o.stop CR) (h : ERime ct w t o r) : Good ct w t o.stop r := by
  have cz : ∀ {k b}, Pv w k CRT → At w t k b → b ∈ u!"ะาำ็" → OkAt ct w t k := fun h1 h2 h3 =>
    ok_pv h1 h2 fun a ha => ha.vowel h3
  rcases h with ⟨-, -, rfl⟩ | ⟨h1, m, k, k', h2, h3, h4⟩ | h | h | ⟨h1, h2⟩ | ⟨-, m, k, h1, h2⟩
  · exact ⟨seg_nil, (hj.imp fun a ha => ha.free).endAt⟩
  · obtain ⟨h5, h6⟩ := mark_seg hct (pv_at (A := fun a => a = ch!"ิ") h1 rfl)
      (fun a ha b hb => sign_mark (by rw [ha]; decide) hb) h2
    have h7 : Pv w k Free := h6.imp fun a ha => by
      rcases ha with rfl | ha
      · decide
      · exact CRT.free (.inr ha)
    have h8 := skip_seg hct h7 h3
    exact good_cons (ok_pv hj h1 fun a ha => ha.sign (by decide)) (good_append h5
      (good_append h8.1 (shut_good hct (h8.2.imp fun _ _ => trivial) h4)))
  · exact mid_good hct (by decide) (by decide) (by decide) hj h
  · exact mid_good hct (by decide) (by decide) (by decide) hj h
  · exact good_cons (cz (hj.imp fun _ ha => .inl ha) h1 (by decide)) (shut_good hct (pv_at h1 trivial) h2)
  · obtain ⟨h3, h4⟩ := crt_mark hct hj h1
    refine good_append h3 ?_
    have hf := h4.imp fun _ ha => ha.free
    have oo : At w t k ch!"อ" → OkAt ct w t k := fun h => ok_pv hf h fun a ha => ha.cons (by decide)
    rcases h2 with ⟨-, rfl⟩ | ⟨k1, ⟨-, k2⟩ | ⟨k2, k3⟩ | ⟨-, k3⟩⟩ | ⟨k1, -, k2⟩ | ⟨k1, ⟨k2, k3⟩ | ⟨-, k3⟩⟩ | ⟨k1, -, k2⟩ |
      ⟨c, -, -, -, -, -, k1 | ⟨k', k1, k2⟩⟩
    · exact ⟨seg_nil, hf.endAt⟩
    · exact open_good hct hf k2
    · exact good_cons (oo k1) (good_cons (cz (pv_at k1 (by decide)) k2 (by decide)) (open_good hct (pv_at k2 (by decide)) k3))
    · exact good_cons (oo k1) (open_good hct (pv_at k1 (by decide)) k3)
    · exact good_cons (cz h4 k1 (by decide)) (open_good hct (pv_at k1 (by decide)) k2)
    · exact good_cons (cz h4 k1 (by decide)) (good_cons
        (ok_pv (pv_at (A := fun a => a = ch!"า") k1 rfl) k2 fun a ha => by rw [ha]; decide)
        (open_good hct (pv_at k2 (by decide)) k3))
    · exact good_cons (cz h4 k1 (by decide)) (open_good hct (pv_at k1 (by decide)) k3)
    · exact good_cons (ok_pv hf k1 fun a ha => ha.cons (by decide)) (open_good hct (pv_at k1 (by decide)) k2)
    · exact open_good hct hf k1
    · have k3 := skip_seg hct hf k1
      exact good_append k3.1 (shutX_good hct (k3.2.imp fun _ _ => trivial) k2)

theorem ae_good {k : Nat} {m : Tone} {r : Rime} (hk : Pv w k CRT) (h : AeRime ct w t k m r) : Good ct w t k r := by
  have hf := hk.imp fun _ ha => ha.free
  rcases h with ⟨k1, k2⟩ | ⟨k1, k2⟩ | ⟨-, -, k1 | ⟨k', k1, k2⟩⟩
  · exact good_cons (ok_pv hk k1 fun a ha => ha.vowel (by decide)) (open_good hct (pv_at k1 (by decide)) k2)
  · exact good_cons (ok_pv hk k1 fun a ha => ha.vowel (by decide)) (shut_good hct (pv_at k1 trivial) k2)
  · exact open_good hct hf k1
  · have k3 := skip_seg hct hf k1
    exact good_append k3.1 (shut_good hct (k3.2.imp fun _ _ => trivial) k2)

theorem o_good {k : Nat} {m : Tone} {r : Rime} (hk : Pv w k CRT) (h : ORime ct w t k m r) : Good ct w t k r := by
  have hf := hk.imp fun _ ha => ha.free
  rcases h with ⟨k1, k2⟩ | ⟨-, ⟨k1, k2⟩ | ⟨-, k1, rfl⟩ | ⟨-, -, rfl | k1⟩⟩
  · refine good_cons (ok_pv hk k1 fun a ha => ha.vowel (by decide)) ?_
    have hp : Pv w (k + 1) Free := pv_at k1 (by decide)
    rcases k2 with ⟨k2, rfl⟩ | ⟨-, k', k2, rfl⟩
    · have k3 := silent_seg hct hp k2
      exact ⟨k3.1, k3.2.endAt⟩
    · have k3 := skipIU_seg hct hp k2
      exact ⟨k3.1, k3.2.endAt⟩
  · have k3 := silent_seg hct hf k1
    rcases k2 with rfl | k2
    · exact ⟨k3.1, k3.2.endAt⟩
    · exact good_append k3.1 (shutX_good hct (k3.2.imp fun _ _ => trivial) k2)
  · have k3 := silent2_seg hct hf k1 fun d hd => .inr hd
    exact ⟨k3.1, k3.2.endAt⟩
  · exact ⟨seg_nil, hf.endAt⟩
  · exact shutX_good hct (hf.imp fun _ _ => trivial) k1

theorem ai_good {b : Bool} {k : Nat} {m : Tone} {r : Rime} (hk : Pv w k CRT) (h : AiRime ct w t b k m r) :
    Good ct w t k r := by
  have hf := hk.imp fun _ ha => ha.free
  rcases h with h | ⟨-, k1, -, rfl⟩
  · exact open_good hct hf h
  · exact ⟨seg_cons (ok_pv hf k1 fun a ha => ha.cons (by decide)) seg_nil, (pv_at (A := Free) k1 (by decide)).endAt⟩

theorem lead_good {v j : Nat} {r : Rime} (hj : Pv w j CR) (h : LeadRime ct w t v j r) : Good ct w t j r := by
  obtain ⟨m, k, h1, h2⟩ := h
  obtain ⟨h3, h4⟩ := crt_mark hct hj h1
  refine good_append h3 ?_
  rcases h2 with ⟨-, h2⟩ | ⟨-, h2⟩ | ⟨-, h2⟩ | ⟨-, h2⟩
  · exact ae_good hct h4 h2
  · exact o_good hct h4 h2
  · exact ai_good hct h4 h2
  · exact ai_good hct h4 h2

theorem ru_good {i c : Nat} {r : Rime} (hi : i < t) (hc : w[i]? = some c) (hc' : c = ch!"ฤ" ∨ c = ch!"ฦ")
    (h : RuRime ct w t i r) : Good ct w t (i + 1) r ∧ i < r.stop := by
  have hp : Pv w (i + 1) fun a => a = c := ⟨c, hc, rfl⟩
  have fc : ∀ {d}, ct.isCons d = true → Follows c d := fun hd =>
    follows_cons (cons_of hct hd) (fun e => by omega) fun e => by
      simp only [List.mem_cons, List.not_mem_nil, or_false] at e
      omega
  rcases h with ⟨h1, rfl⟩ | ⟨h1, rfl⟩ | ⟨d, h1, h2, ⟨-, rfl⟩ | ⟨-, h3⟩⟩
  · refine ⟨⟨seg_nil, c, hc, .inr (.inr ⟨by show i + 1 = t; omega, ?_⟩)⟩, Nat.lt_succ_self _⟩
    rcases hc' with rfl | rfl <;> decide
  · refine ⟨?_, by show i < i + 2; omega⟩
    rcases h1 with h1 | h1
    · exact ⟨seg_cons (ok_pv hp h1 fun a ha => by rw [ha]; rcases hc' with rfl | rfl <;> decide) seg_nil,
        (pv_at (A := Free) h1 (by decide)).endAt⟩
    · exact ⟨seg_cons (ok_pv hp h1 fun a ha => by rw [ha]; rcases hc' with rfl | rfl <;> decide) seg_nil,
        (pv_at (A := Free) h1 (by decide)).endAt⟩
  · exact ⟨⟨seg_nil, c, hc, .inr (.inl ⟨h1.1, d, h1.2, fc h2⟩)⟩, Nat.lt_succ_self _⟩
  · refine ⟨shutX_good hct (hp.imp fun _ _ => trivial) h3, ?_⟩
    obtain ⟨k, b, f, ⟨e, k1, k2⟩, rfl⟩ := h3
    show i < k
    rcases k2 with ⟨-, ⟨-, k2⟩ | ⟨-, -, k2⟩ | ⟨-, -, k2⟩⟩ | ⟨-, ⟨-, k2, -⟩ | ⟨-, k2, -⟩⟩ <;> omega

/-! ## Syllables -/

theorem spelled_side {i : Nat} {l : Bool} {o : Onset} {r : Rime} (ht : t ≤ w.length) (hi : i < t)
    (h : Spelled ct w t i l o r) :
    (∃ c, w[i]? = some c ∧ Begins c) ∧ Good ct w t (i + 1) r ∧ i < r.stop := by
  obtain ⟨c, hc, h⟩ := h
  have lead : ct.isLdVowel c = true ∨ c = ch!"เ" → OnsetAt ct w t (i + 1) l o → (Pv w o.stop CR → Good ct w t o.stop r) →
      o.stop ≤ r.stop → (∃ c, w[i]? = some c ∧ Begins c) ∧ Good ct w t (i + 1) r ∧ i < r.stop := fun hl ho hr hs => by
    obtain ⟨⟨d, h1, h2⟩, h3, h4, h5⟩ := onset_seg hct ho
    have hl : IsLead c := by
      rcases hl with hl | rfl
      · exact lead_of hct hl
      · decide
    refine ⟨⟨c, hc, .inr (.inl hl)⟩, good_cons ⟨c, d, hc, h1, ?_, .inr h2⟩ (good_append h3 (hr h4)), by omega⟩
    simp only [IsLead] at hl
    refine follows_cons (cons_of hct h2) (fun e => by omega) fun e => ?_
    simp only [List.mem_cons, List.not_mem_nil, or_false] at e
    omega
  rcases h with ⟨h1, ⟨ho, -, h⟩ | ⟨h, -⟩⟩ | ⟨hl, -, ho, h⟩ | ⟨hl, -, ho, h⟩ | ⟨hr, -, h⟩
  · obtain ⟨-, h3, h4, h5⟩ := onset_seg hct ho
    have := consRime_ge h
    exact ⟨⟨c, hc, .inl (cons_of hct h1)⟩, good_append h3 (cons_good hct ht h4 h), by omega⟩
  · exact ⟨⟨c, hc, .inl (cons_of hct h1)⟩, whole_good hct h⟩
  · exact lead (.inr hl) ho (fun hp => e_good hct hp h) (eRime_ge h)
  · exact lead (.inl hl) ho (fun hp => lead_good hct hp h) (leadRime_ge h)
  · refine ⟨⟨c, hc, .inr (.inr ?_)⟩, ru_good hct hi hc hr h⟩
    rcases hr with rfl | rfl <;> decide

end

/-! ## Readings -/

section
variable {ct : CType} {w : U16Str} {look : List Nat → Option Str} {brk : List Int}

/-- The character at `m` is in its place. -/
def Placed (ct : CType) (w : U16Str) (look : List Nat → Option Str) (brk : List Int) (m : Nat) : Prop :=
  ∀ b, w[m]? = some b → TextAt ct w m → InsideWord w look m ∨ (0 < m ∧ ∃ a, w[m - 1]? = some a ∧ Follows a b) ∨
    (Begins b ∧ (m = 0 ∨ ¬ TextAt ct w (m - 1) ∨ (m : Int) ∈ brk ∨ AfterWord w look m)) ∨
    (¬ Begins b ∧ AtWord w look m)

/-- The character at `m` can be the last one. -/
def LastOk (ct : CType) (w : U16Str) (look : List Nat → Option Str) (brk : List Int) (m : Nat) : Prop :=
  ∀ a, w[m]? = some a → TextAt ct w m → ¬ TextAt ct w (m + 1) →
    InsideWord w look (m + 1) ∨ AfterWord w look (m + 1) ∨ Ends a

/-- What can be said at the position reached. -/
def Reached (ct : CType) (w : U16Str) (look : List Nat → Option Str) (brk : List Int) (p : Nat) : Prop :=
  p = 0 ∨ ¬ TextAt ct w (p - 1) ∨ AfterWord w look p ∨
    ∃ a, w[p - 1]? = some a ∧ (Free a ∨ (TextAt ct w p ∧ ∃ b, w[p]? = some b ∧ Follows a b) ∨
      (((p : Int) ∈ brk ∨ ¬ TextAt ct w p) ∧ Ends a))

theorem reached_placed {p c : Nat} (h : Reached ct w look brk p) (hc : w[p]? = some c) (hb : Begins c) :
    Placed ct w look brk p := by
  intro b hb' ht
  rw [hc] at hb'
  cases hb'
  rcases Nat.eq_zero_or_pos p with h0 | h0
  · exact .inr (.inr (.inl ⟨hb, .inl h0⟩))
  rcases h with h | h | h | ⟨a, ha, h | ⟨-, b, h1, h2⟩ | ⟨h | h, -⟩⟩
  · exact .inr (.inr (.inl ⟨hb, .inl h⟩))
  · exact .inr (.inr (.inl ⟨hb, .inr (.inl h)⟩))
  · exact .inr (.inr (.inl ⟨hb, .inr (.inr (.inr h))⟩))
  · exact .inr (.inl ⟨h0, a, ha, h.begins hb⟩)
  · rw [hc] at h1
    cases h1
    exact .inr (.inl ⟨h0, a, ha, h2⟩)
  · exact .inr (.inr (.inl ⟨hb, .inr (.inr (.inl h))⟩))
  · exact absurd ht h

theorem reached_last {p : Nat} (hp : 0 < p) (h : Reached ct w look brk p) : LastOk ct w look brk (p - 1) := by
  intro a ha ht hn
  rw [Nat.sub_add_cancel hp] at hn ⊢
  rcases h with h | h | h | ⟨b, hb, h⟩
  · omega
  · exact absurd ht h
  · exact .inr (.inl h)
  rw [ha] at hb
  cases hb
  rcases h with h | ⟨h, -⟩ | ⟨-, h⟩
  · exact .inr (.inr h.ends)
  · exact absurd h hn
  · exact .inr (.inr h)

/-- All characters read so far. -/
def Read (ct : CType) (w : U16Str) (look : List Nat → Option Str) (brk : List Int) (p : Nat) : Prop :=
  (∀ m, m < p → Placed ct w look brk m) ∧ (∀ m, m + 1 < p → LastOk ct w look brk m) ∧ Reached ct w look brk p

/-- One step from `p` to `q`. -/
theorem read_step {p q : Nat} (h : Read ct w look brk p) (hpq : p < q) (h1 : ∀ m, p ≤ m → m < q → Placed ct w look brk m)
    (h2 : ∀ m, p ≤ m → m + 1 < q → LastOk ct w look brk m) (h3 : Reached ct w look brk q) : Read ct w look brk q := by
  refine ⟨fun m hm => ?_, fun m hm => ?_, h3⟩
  · rcases Nat.lt_or_ge m p with k | k
    · exact h.1 m k
    · exact h1 m k hm
  · rcases Nat.lt_or_ge (m + 1) p with k | k
    · exact h.2.1 m k
    · rcases Nat.eq_or_lt_of_le k with k | k
      · have := reached_last (by omega) h.2.2
        rwa [show p - 1 = m by omega] at this
      · exact h2 m (by omega) hm

theorem step_read (hct : ct.Ok) {c c' : Config} (h : Rule ct w look brk c c') (hr : Read ct w look brk c.pos) :
    Read ct w look brk c'.pos := by
  cases h with
  | @other p l es q ho =>
    dsimp only at hr ⊢
    obtain ⟨h1, h2, h3, -⟩ := ho
    refine read_step hr h1 (fun m k1 k2 b _ ht => absurd ht (h3 m k1 k2)) (fun m k1 k2 b _ ht => absurd ht (h3 m k1 (by omega)))
      (.inr (.inl (h3 _ (by omega) (by omega))))
  | @word p l es t q data strs str ht hw _ _ =>
    dsimp only at hr ⊢
    obtain ⟨h1, h2, h3, -⟩ := hw
    have hl : look (piece w p q) ≠ none := by rw [h3]; simp
    refine read_step hr h1 (fun m k1 k2 => ?_) (fun m k1 k2 b _ _ _ => .inl ⟨p, q, by omega, k2, h2, hl⟩)
      (.inr (.inr (.inl ⟨p, h1, h2, hl⟩)))
    rcases Nat.eq_or_lt_of_le k1 with rfl | k1
    · intro b hb ht
      by_cases hbb : Begins b
      · exact reached_placed hr.2.2 hb hbb b hb ht
      · exact .inr (.inr (.inr ⟨hbb, q, h1, h2, hl⟩))
    · exact fun b _ _ => .inl ⟨p, q, k1, k2, h2, hl⟩
  | @abbr p l es t q new ht _ ha _ =>
    dsimp only at hr ⊢
    have cf : ∀ {m c : Nat}, w[m]? = some c → ct.isCons c = true ∨ c = ch!"." → Free c ∧ Begins c := fun _ h => by
      rcases h with h | rfl
      · exact ⟨cons_free (cons_of hct h), .inl (cons_of hct h)⟩
      · exact ⟨by decide, by decide⟩
    have all : p < q ∧ ∀ m, p ≤ m → m < q → ∃ c, w[m]? = some c ∧ (ct.isCons c = true ∨ c = ch!".") := by
      rcases ha.shape with ⟨n, -, rfl, h1, h2⟩ | ⟨rfl, -, c, h1, h2⟩
      · refine ⟨by omega, fun m k1 k2 => ?_⟩
        rcases Nat.lt_or_ge m (p + n) with k3 | k3
        · obtain ⟨c, h3, h4⟩ := h1 m k1 k3
          exact ⟨c, h3, .inl h4⟩
        · rw [show m = p + n by omega]
          exact ⟨_, h2, .inr rfl⟩
      · refine ⟨by omega, fun m k1 k2 => ?_⟩
        rw [show m = p by omega]
        exact ⟨c, h1, .inl h2⟩
    refine read_step hr all.1 (fun m k1 k2 => ?_) (fun m k1 k2 b h1 _ _ => ?_) ?_
    · rcases Nat.eq_or_lt_of_le k1 with rfl | k1
      · obtain ⟨c, h1, h2⟩ := all.2 _ k1 k2
        exact reached_placed hr.2.2 h1 (cf h1 h2).2
      · intro b hb _
        obtain ⟨a, h1, h2⟩ := all.2 (m - 1) (by omega) (by omega)
        obtain ⟨c, h3, h4⟩ := all.2 m (by omega) k2
        rw [hb] at h3
        cases h3
        exact .inr (.inl ⟨by omega, a, h1, (cf h1 h2).1.begins (cf hb h4).2⟩)
    · obtain ⟨c, h3, h4⟩ := all.2 m k1 (by omega)
      rw [h1] at h3
      cases h3
      exact .inr (.inr (cf h1 h4).1.ends)
    · have := all.1
      obtain ⟨c, h3, h4⟩ := all.2 (q - 1) (by omega) (by omega)
      exact .inr (.inr (.inr ⟨c, h3, .inl (cf h3 h4).1⟩))
  | @syl p l es t o r ht _ _ hs =>
    dsimp only at hr ⊢
    obtain ⟨h1, h2, h3, h4, h5⟩ := ht
    obtain ⟨⟨c, hc, hb⟩, ⟨h6, h7⟩, h8⟩ := spelled_side hct h2 h1 hs
    refine read_step hr h8 (fun m k1 k2 => ?_) (fun m k1 k2 b _ _ hn => ?_) ?_
    · rcases Nat.eq_or_lt_of_le k1 with rfl | k1
      · exact reached_placed hr.2.2 hc hb
      · intro b hb _
        obtain ⟨a, b', g1, g2, g3, -⟩ := h6 m k1 k2
        rw [hb] at g2
        cases g2
        exact .inr (.inl ⟨by omega, a, g1, g3⟩)
    · obtain ⟨a, b', -, g2, -, g4⟩ := h6 (m + 1) (by omega) k2
      rcases g4 with g4 | g4
      · exact absurd (h3 (m + 1) (by omega) g4) hn
      · exact absurd ⟨b', g2, .inl g4⟩ hn
    · obtain ⟨a, ha, h7⟩ := h7
      refine .inr (.inr (.inr ⟨a, ha, ?_⟩))
      rcases h7 with h7 | ⟨h7, h9⟩ | ⟨rfl, h7⟩
      · exact .inl h7
      · exact .inr (.inl ⟨h3 _ (by omega) h7, h9⟩)
      · refine .inr (.inr ⟨?_, h7⟩)
        rcases h5 with h5 | ⟨-, h5⟩
        · unfold nextBreak at h5
          cases hf : brk.find? fun b => decide (b > (p : Int)) with
          | none =>
            rw [hf] at h5
            refine .inr fun ⟨c, hc, _⟩ => ?_
            have := (List.getElem?_eq_some_iff.mp hc).1
            simp only [Option.getD_none] at h5
            omega
          | some b =>
            rw [hf] at h5
            exact .inl (h5 ▸ List.mem_of_find?_eq_some hf)
        · exact .inr h5
  | @dot p l es t ht _ _ hd =>
    dsimp only at hr ⊢
    refine read_step hr (Nat.lt_succ_self p) (fun m k1 k2 => ?_) (fun m k1 k2 => by omega) ?_
    · rw [show m = p by omega]
      exact reached_placed hr.2.2 hd (by decide)
    · exact .inr (.inr (.inr ⟨_, hd, .inl (by decide)⟩))

/-- In a text with a reading every character is in its place. -/
theorem reading_read (hct : ct.Ok) {es : List (Entry Syl)} (h : RuleReading ct w look brk es) :
    (∀ m, Placed ct w look brk m) ∧ ∀ m, LastOk ct w look brk m := by
  obtain ⟨c, h1, h2, -⟩ := h
  have h0 : Read ct w look brk 0 := ⟨fun m hm => by omega, fun m hm => by omega, .inl rfl⟩
  have h3 : Read ct w look brk c.pos := by
    clear h2
    induction h1 with
    | refl => exact h0
    | tail _ hs ih => exact step_read hct hs ih
  refine ⟨fun m b hb ht => ?_, fun m b hb ht hn => ?_⟩
  · have : m < w.length := (List.getElem?_eq_some_iff.mp hb).1
    exact h3.1 m (by omega) b hb ht
  · have : m < w.length := (List.getElem?_eq_some_iff.mp hb).1
    rcases Nat.lt_or_ge (m + 1) c.pos with k | k
    · exact h3.2.1 m k b hb ht hn
    · have := reached_last (by omega) h3.2.2
      rw [show c.pos - 1 = m by omega] at this
      exact this b hb ht hn

end

end Thpronun.Side
