import Verif.Lemmas.Adjacent
import Verif.Lemmas.AdjacentWords1
import Verif.Lemmas.AdjacentWords2
import Verif.Lemmas.AdjacentWords3
import Verif.Props.Listed
import Verif.Props.Shipped
import Verif.Lemmas.Route
import Verif.Spec.Concat
import Verif.Lemmas.ReadBack

/-! # Only well-formed spellings are read: C85 -/

namespace Thpronun
open Res Spec DAG Side

variable {ct : CType} {p : Parser} {word : Str} {w : U16Str} {look : List Nat → Option Str} {d : PronunDAG}
  {ss : List SylString}

private theorem read_of (hct : ct.Ok) (hw : fromBytes word = .ok w) (hd : Holds p.exceptDict look) (hg : GoodLook look)
    (h : p.parseWord ct word = .ok d) (hs : PronunDAG.sylStrings d 0 = .ok ss) (hss : ss ≠ []) (hne : w ≠ []) :
    (∀ m, Placed ct w look (findBreaks w p.thBrk) m) ∧ ∀ m, LastOk ct w look (findBreaks w p.thBrk) m := by
  obtain ⟨ss', h1, h2, -⟩ := C54_exact hct hw hd hg hne h
  rw [hs] at h1
  cases h1
  obtain ⟨s, hs'⟩ := List.exists_mem_of_ne_nil _ hss
  by_contra hn
  refine Cut.route_none hne (fun es he => hn (reading_read hct he)) (h2 s hs')

/-- In a word with a pronunciation every vowel sign, tone mark, maitaikhu and thanthakhat stands after a character that
it can follow, unless it belongs to a dictionary word. -/
theorem C85_sign (hct : ct.Ok) (hw : fromBytes word = .ok w) (hd : Holds p.exceptDict look) (hg : GoodLook look)
    (h : p.parseWord ct word = .ok d) (hs : PronunDAG.sylStrings d 0 = .ok ss) (hss : ss ≠ []) {k b : Nat}
    (hb : w[k]? = some b) (ht : IsText ct b) (hnb : ¬ Begins b) :
    InsideWord w look k ∨ AtWord w look k ∨ (0 < k ∧ ∃ a, w[k - 1]? = some a ∧ Follows a b) := by
  have hne : w ≠ [] := fun e => by subst e; cases hb
  rcases (read_of hct hw hd hg h hs hss hne).1 k b hb ⟨b, hb, ht⟩ with k1 | k1 | ⟨k1, -⟩ | ⟨-, k1⟩
  · exact .inl k1
  · exact .inr (.inr k1)
  · exact absurd k1 hnb
  · exact .inr (.inl k1)

/-- In a word with a pronunciation two Thai characters side by side, without a word break between them, are a pair of the
table, unless they are in a dictionary word, or after one, or it begins with the second one, which no syllable does. -/
theorem C85_pair (hct : ct.Ok) (hw : fromBytes word = .ok w) (hd : Holds p.exceptDict look) (hg : GoodLook look)
    (h : p.parseWord ct word = .ok d) (hs : PronunDAG.sylStrings d 0 = .ok ss) (hss : ss ≠ []) {k a b : Nat}
    (ha : w[k]? = some a) (hb : w[k + 1]? = some b) (hta : IsText ct a) (htb : IsText ct b)
    (hbrk : ((k + 1 : Nat) : Int) ∉ findBreaks w p.thBrk) :
    InsideWord w look (k + 1) ∨ AfterWord w look (k + 1) ∨ (¬ Begins b ∧ AtWord w look (k + 1)) ∨ Follows a b := by
  have hne : w ≠ [] := fun e => by subst e; cases hb
  rcases (read_of hct hw hd hg h hs hss hne).1 (k + 1) b hb ⟨b, hb, htb⟩ with
    k1 | ⟨-, a', h1, h2⟩ | ⟨k1, k2 | k2 | k2 | k2⟩ | k1
  · exact .inl k1
  · rw [Nat.add_sub_cancel, ha] at h1
    cases h1
    exact .inr (.inr (.inr h2))
  · omega
  · exact absurd ⟨a, by rw [Nat.add_sub_cancel]; exact ha, hta⟩ k2
  · exact absurd k2 hbrk
  · exact .inr (.inl k2)
  · exact .inr (.inr (.inl k1))

/-- In a word with a pronunciation the last Thai character, or the last one before other text, is none of ั, ็ and the
leading vowels, unless it belongs to a dictionary word. -/
theorem C85_last (hct : ct.Ok) (hw : fromBytes word = .ok w) (hd : Holds p.exceptDict look) (hg : GoodLook look)
    (h : p.parseWord ct word = .ok d) (hs : PronunDAG.sylStrings d 0 = .ok ss) (hss : ss ≠ []) {k a : Nat}
    (ha : w[k]? = some a) (hta : IsText ct a) (hn : ∀ b, w[k + 1]? = some b → ¬ IsText ct b) :
    InsideWord w look (k + 1) ∨ AfterWord w look (k + 1) ∨ Ends a := by
  have hne : w ≠ [] := fun e => by subst e; cases ha
  exact (read_of hct hw hd hg h hs hss hne).2 k a ha ⟨a, ha, hta⟩ fun ⟨b, hb, ht⟩ => hn b hb ht

/-! ## The table is exact -/

private theorem text_chars {c : Nat} (h : IsText thaiCType c) : c ∈ consonants ∨ c ∈ others := by
  have hr : c ∈ (List.range 0x5c).map (· + 0x0e00) ∨ c = ch!"." := by
    simp only [IsText, thaiCType, Bool.and_eq_true, Bool.or_eq_true, decide_eq_true_eq, List.mem_cons, List.not_mem_nil,
      or_false] at h
    rw [List.mem_map]
    by_cases hc : c = ch!"."
    · exact .inr hc
    · exact .inl ⟨c - 0x0e00, List.mem_range.mpr (by omega), by omega⟩
  rcases hr with hr | rfl
  · have : ∀ c ∈ (List.range 0x5c).map (· + 0x0e00), IsText thaiCType c → c ∈ consonants ∨ c ∈ others := by
      unfold IsText
      decide +kernel
    exact this c hr h
  · exact .inr (by decide)

/-- Two Thai characters stand side by side in some word that is read without dictionary and word breaks if and only if
they are a pair of the table. -/
theorem C85_exact {a b : Nat} (ha : IsText thaiCType a) (hb : IsText thaiCType b) :
    (∃ word w d ss, fromBytes word = .ok w ∧ (Parser.new (fun _ => []) false).parseWord thaiCType word = .ok d ∧
      PronunDAG.sylStrings d 0 = .ok ss ∧ ss ≠ [] ∧ SideBySide w a b) ↔ Follows a b := by
  constructor
  · rintro ⟨word, w, d, ss, hw, h, hs, hss, k, h1, h2⟩
    rcases C85_pair (look := fun _ => none) thaiCType_ok hw holds_none (by intro _ _ h; cases h) h hs hss h1 h2 ha hb (by simp [Parser.new, findBreaks]) with
      ⟨_, _, -, -, -, h3⟩ | ⟨_, -, -, h3⟩ | ⟨-, _, -, -, h3⟩ | h3
    · exact absurd rfl h3
    · exact absurd rfl h3
    · exact absurd rfl h3
    · exact h3
  · intro hf
    have hsh : shown a b = true := by
      rcases text_chars ha with ha | ha <;> rcases text_chars hb with hb | hb
      · exact shown_cons a ha b hb
      · exact shown_after a ha b hb hf
      · exact shown_before a ha b hb hf
      · exact shown_others a ha b hb hf
    obtain ⟨d, hd, h⟩ := parsesTo_spec hsh
    cases hs : PronunDAG.sylStrings d 0 with
    | ok ss =>
      rw [hs] at h
      have hw : fromBytes (enc8 ((around a b).1 ++ a :: b :: (around a b).2)) = .ok ((around a b).1 ++ a :: b :: (around a b).2) := by
        have hc : ∀ c ∈ (around a b).1 ++ a :: b :: (around a b).2, c < 0xd800 := by
          have h0 : ∀ {c : Nat}, c ∈ consonants ∨ c ∈ others → c < 0xd800 := by
            have h1 : ∀ c ∈ consonants, c < 0xd800 := by decide
            have h2 : ∀ c ∈ others, c < 0xd800 := by decide
            exact fun {c} h => h.elim (h1 c) (h2 c)
          have h1 := around_small a b
          intro c hc
          simp only [List.mem_append, List.mem_cons] at hc
          rcases hc with hc | rfl | rfl | hc
          · exact h1.1 c hc
          · exact h0 (text_chars ha)
          · exact h0 (text_chars hb)
          · exact h1.2 c hc
        exact fromBytes_ok.mpr ⟨_, fun c h => isScalar_iff.mpr (.inl (hc c h)), rfl, (enc16_bmp hc).symm⟩
      refine ⟨_, _, d, ss, hw, ?_, hs, fun e => ?_, (around a b).1.length, ?_, ?_⟩
      · rw [C37_word _ _ _ hw]; exact hd
      · subst e; cases h
      · simp
      · rw [List.getElem?_append_right (by omega)]; simp
    | _ => rw [hs] at h; cases h

/-! ## The shipped dictionary -/

/-- The words of the shipped dictionary are spelled as in the table too; only "ก็" ends as no other word can. -/
theorem C85_data (e : DEntry) (he : e ∈ exceptEntries) :
    (∀ a b, SideBySide e.word a b → Follows a b) ∧ (∀ c, e.word.head? = some c → Begins c) ∧
    (∀ c ∈ e.word, IsText thaiCType c) ∧ (∀ c, e.word.getLast? = some c → e.word = u!"ก็" ∨ Free c) := by
  have key : ∀ e ∈ exceptEntries, (∀ x ∈ e.word.zip (e.word.drop 1), Follows x.1 x.2) ∧ (∀ c ∈ e.word.head?, Begins c) ∧
      (∀ c ∈ e.word, IsText thaiCType c) ∧ (∀ c ∈ e.word.getLast?, e.word = u!"ก็" ∨ Free c) := by
    unfold IsText
    decide +kernel
  obtain ⟨h1, h2, h3, h4⟩ := key e he
  refine ⟨fun a b ⟨k, ka, kb⟩ => h1 (a, b) ?_, h2, h3, h4⟩
  refine List.mem_of_getElem? (i := k) ?_
  rw [List.getElem?_zip_eq_some]
  exact ⟨ka, by rw [List.getElem?_drop, Nat.add_comm]; exact kb⟩

private theorem entry_of {w : List Nat} (h : lastData exceptEntries w ≠ none) : ∃ e ∈ exceptEntries, e.word = w := by
  unfold lastData at h
  cases hf : exceptEntries.reverse.find? fun e => decide (e.word = w) with
  | none => rw [hf] at h; exact absurd rfl h
  | some e => exact ⟨e, List.mem_reverse.mp (List.mem_of_find?_eq_some hf), by simpa using List.find?_some hf⟩

private theorem piece_get {w : U16Str} {p q k : Nat} (h1 : p ≤ k) (h2 : k < q) : (piece w p q)[k - p]? = w[k]? := by
  unfold piece
  rw [List.getElem?_take_of_lt (by omega), List.getElem?_drop, show p + (k - p) = k by omega]

/-- With the shipped dictionary: a word with a pronunciation has only signs that can stand where they are, and only pairs
of the table, except after "ก็". -/
theorem C85_shipped (hw : fromBytes word = .ok w) (hd : Holds p.exceptDict (lastData exceptEntries))
    (h : p.parseWord thaiCType word = .ok d) (hs : PronunDAG.sylStrings d 0 = .ok ss) (hss : ss ≠ []) :
    (∀ k b : Nat, w[k]? = some b → IsText thaiCType b → ¬ Begins b → 0 < k ∧ ∃ a, w[k - 1]? = some a ∧ Follows a b) ∧
    (∀ k a b : Nat, w[k]? = some a → w[k + 1]? = some b → IsText thaiCType a → IsText thaiCType b →
      ((k + 1 : Nat) : Int) ∉ findBreaks w p.thBrk → Follows a b ∨ (a = ch!"็" ∧ 0 < k ∧ w[k - 1]? = some ch!"ก" ∧ Begins b)) ∧
    (∀ k a : Nat, w[k]? = some a → IsText thaiCType a → (∀ b, w[k + 1]? = some b → ¬ IsText thaiCType b) →
      Ends a ∨ (a = ch!"็" ∧ 0 < k ∧ w[k - 1]? = some ch!"ก")) := by
  have hg : GoodLook (lastData exceptEntries) := C48_good _ fun _ h => h
  have inside : ∀ {k b}, InsideWord w (lastData exceptEntries) k → w[k]? = some b →
      0 < k ∧ IsText thaiCType b ∧ ∃ a, w[k - 1]? = some a ∧ Follows a b := by
    rintro k b ⟨q, r, h1, h2, h3, h4⟩ hb
    obtain ⟨e, he, hew⟩ := entry_of h4
    have ha : w[k - 1]? = some w[k - 1] := List.getElem?_eq_getElem (by omega)
    have g1 := piece_get (w := w) (p := q) (q := r) (k := k - 1) (by omega) (by omega)
    have g2 := piece_get (w := w) (p := q) (q := r) (k := k) (by omega) (by omega)
    refine ⟨by omega, (C85_data e he).2.2.1 b ?_, _, ha, (C85_data e he).1 _ _ ⟨k - 1 - q, ?_, ?_⟩⟩
    · rw [hew]; exact List.mem_of_getElem? (g2.trans hb)
    · rw [hew]; exact g1.trans ha
    · rw [hew, show k - 1 - q + 1 = k - q by omega]; exact g2.trans hb
  have at_ : ∀ {k b}, AtWord w (lastData exceptEntries) k → w[k]? = some b → Begins b := by
    rintro k b ⟨r, h1, h2, h3⟩ hb
    obtain ⟨e, he, hew⟩ := entry_of h3
    refine (C85_data e he).2.1 b ?_
    rw [hew, List.head?_eq_getElem?, ← hb, ← piece_get (w := w) (Nat.le_refl k) h1, Nat.sub_self]
  have after : ∀ {k a}, AfterWord w (lastData exceptEntries) (k + 1) → w[k]? = some a →
      Free a ∨ (a = ch!"็" ∧ 0 < k ∧ w[k - 1]? = some ch!"ก") := by
    rintro k a ⟨q, h1, h2, h3⟩ ha
    obtain ⟨e, he, hew⟩ := entry_of h3
    have hl : (piece w q (k + 1)).length = k + 1 - q := by unfold piece; simp; omega
    have g1 := piece_get (w := w) (p := q) (q := k + 1) (k := k) (by omega) (by omega)
    have hlast : e.word.getLast? = some a := by
      rw [hew, List.getLast?_eq_getElem?, hl, show k + 1 - q - 1 = k - q by omega, g1, ha]
    rcases (C85_data e he).2.2.2 a hlast with k1 | k1
    · right
      rw [hew] at k1
      have hl2 : k + 1 - q = 2 := by rw [← hl, k1]; rfl
      have g2 := piece_get (w := w) (p := q) (q := k + 1) (k := k - 1) (by omega) (by omega)
      rw [k1, show k - q = 1 by omega, ha] at g1
      rw [k1, show k - 1 - q = 0 by omega] at g2
      exact ⟨Option.some.inj g1.symm, by omega, g2.symm⟩
    · exact .inl k1
  refine ⟨fun k b hb ht hnb => ?_, fun k a b ha hb hta htb hbrk => ?_, fun k a ha hta hn => ?_⟩
  · rcases C85_sign thaiCType_ok hw hd hg h hs hss hb ht hnb with k1 | k1 | k1
    · obtain ⟨g1, -, g2⟩ := inside k1 hb
      exact ⟨g1, g2⟩
    · exact absurd (at_ k1 hb) hnb
    · exact k1
  · have sure : InsideWord w (lastData exceptEntries) (k + 1) → Follows a b := fun k1 => by
      obtain ⟨-, -, a', g1, g2⟩ := inside k1 hb
      rw [Nat.add_sub_cancel, ha] at g1
      cases g1
      exact g2
    by_cases hbb : Begins b
    · rcases C85_pair thaiCType_ok hw hd hg h hs hss ha hb hta htb hbrk with k1 | k1 | ⟨k1, -⟩ | k1
      · exact .inl (sure k1)
      · rcases after k1 ha with g | ⟨g1, g2, g3⟩
        · exact .inl (g.begins hbb)
        · exact .inr ⟨g1, g2, g3, hbb⟩
      · exact absurd hbb k1
      · exact .inl k1
    · rcases C85_sign thaiCType_ok hw hd hg h hs hss hb htb hbb with k1 | k1 | ⟨-, a', g1, g2⟩
      · exact .inl (sure k1)
      · exact absurd (at_ k1 hb) hbb
      · rw [Nat.add_sub_cancel, ha] at g1
        cases g1
        exact .inl g2
  · rcases C85_last thaiCType_ok hw hd hg h hs hss ha hta hn with k1 | k1 | k1
    · have hk : k + 1 < w.length := by
        obtain ⟨q, r, -, h2, h3, -⟩ := k1
        omega
      exact absurd (inside k1 (List.getElem?_eq_getElem hk)).2.1 (hn _ (List.getElem?_eq_getElem hk))
    · rcases after k1 ha with g | g
      · exact .inl g.ends
      · exact .inr g
    · exact .inl k1

/-! ## Order of the signs -/

/-- A word with a tone mark typed before a vowel sign of the same letter is not read at all, with the shipped dictionary
or without; this includes the order that is canonically equivalent (mark before ุ or ู). -/
theorem C85_order (hw : fromBytes word = .ok w)
    (hd : p.exceptDict = none ∨ Holds p.exceptDict (lastData exceptEntries)) (h : p.parseWord thaiCType word = .ok d)
    {k a b : Nat} (ha : w[k]? = some a) (hb : w[k + 1]? = some b) (hm : IsMark a) (hv : b ∈ u!"ัิีึืุู") :
    PronunDAG.sylStrings d 0 = .ok [] := by
  have hnf : ¬ Follows a b := by
    simp only [IsMark, Follows, IsCons, IsLead, List.mem_cons, List.not_mem_nil, or_false] at hm hv ⊢
    rcases hv with rfl | rfl | rfl | rfl | rfl | rfl | rfl <;> simp <;> omega
  have hnb : ¬ Begins b ∧ IsText thaiCType b := by
    simp only [List.mem_cons, List.not_mem_nil, or_false] at hv
    unfold IsText
    rcases hv with rfl | rfl | rfl | rfl | rfl | rfl | rfl <;> decide
  have hne : w ≠ [] := fun e => by subst e; cases hb
  have hll : ∃ ss, PronunDAG.sylStrings d 0 = .ok ss := by
    rcases hd with hd | hd
    · obtain ⟨ss, hs, -⟩ := C54_exact (look := fun _ => none) thaiCType_ok hw (hd ▸ holds_none) (by intro _ _ h; cases h) hne h
      exact ⟨ss, hs⟩
    · obtain ⟨ss, hs, -⟩ := C54_exact thaiCType_ok hw hd (C48_good _ fun _ h => h) hne h
      exact ⟨ss, hs⟩
  obtain ⟨ss, hs⟩ := hll
  by_cases hss : ss = []
  · rw [hs, hss]
  exfalso
  have key : ∃ a, w[k + 1 - 1]? = some a ∧ Follows a b := by
    rcases hd with hd | hd
    · rcases C85_sign (look := fun _ => none) thaiCType_ok hw (hd ▸ holds_none) (by intro _ _ h; cases h) h hs hss hb hnb.2 hnb.1 with
        ⟨_, _, -, -, -, h3⟩ | ⟨_, -, -, h3⟩ | ⟨-, h3⟩
      · exact absurd rfl h3
      · exact absurd rfl h3
      · exact h3
    · exact ((C85_shipped hw hd h hs hss).1 (k + 1) b hb hnb.2 hnb.1).2
  obtain ⟨a', h1, h2⟩ := key
  rw [Nat.add_sub_cancel, ha] at h1
  cases h1
  exact hnf h2

/-- The same letters in the usual order are read: กุ่ has a pronunciation, กุ่ (mark first) has none. -/
theorem C85_order_needed : (∃ d ss, (Parser.new (fun _ => []) false).parseWord thaiCType (enc8 [0x0e01, 0x0e38, 0x0e48]) = .ok d ∧
      PronunDAG.sylStrings d 0 = .ok ss ∧ ss ≠ []) ∧
    ∃ d, (Parser.new (fun _ => []) false).parseWord thaiCType (enc8 [0x0e01, 0x0e48, 0x0e38]) = .ok d ∧
      PronunDAG.sylStrings d 0 = .ok [] := by
  constructor
  · obtain ⟨d, hd, h⟩ := parsesTo_spec (n := 40) (w := [0x0e01, 0x0e38, 0x0e48]) (dict := none) (brk := [])
      (P := fun d => match PronunDAG.sylStrings d 0 with | .ok ss => decide (ss ≠ []) | _ => false) (by decide +kernel)
    cases hs : PronunDAG.sylStrings d 0 with
    | ok ss => rw [hs] at h; exact ⟨d, ss, hd, hs, of_decide_eq_true h⟩
    | _ => rw [hs] at h; cases h
  · obtain ⟨d, hd, h⟩ := parsesTo_spec (n := 40) (w := [0x0e01, 0x0e48, 0x0e38]) (dict := none) (brk := [])
      (P := fun d => decide (PronunDAG.sylStrings d 0 = .ok [])) (by decide +kernel)
    exact ⟨d, hd, of_decide_eq_true h⟩

/-- The hypotheses are met by words with signs of all kinds, and the claims say something about them. -/
example : ∀ w ∈ [u!"เก๊าะ", u!"แพทย์", u!"ก๋วยเตี๋ยว", u!"ฤๅษี", u!"สิทธิ์"], isRead w = true := by decide +kernel

end Thpronun
