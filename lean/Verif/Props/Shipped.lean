import Verif.Model.ShippedData
import Verif.Props.Parser

/-! # C48: the shipped exception data -/

namespace Thpronun
open Res Spec Shipped

/-- The entries of except.tsv. -/
def exceptEntries : List DEntry := exceptTable.map fun e => ⟨e.1, e.2⟩

/-- The lines of a file, with their newlines (a last line without newline is a line too). -/
def fileLines (f : Str) : List Str :=
  f.foldr (fun b ls => if b = 10 then [b] :: ls else match ls with | [] => [[b]] | l :: ls => (b :: l) :: ls) []

/-- except.tsv is what the make rule produces from the files: `cat $^ | LC_ALL=C sort -u`, i.e. the lines of all
files in strictly ascending order of bytes. -/
theorem C48_file : (exceptEntries.map entryLine).Pairwise (fun a b => List.lex a b (fun x y => decide (x < y)) = true) ∧
    ∀ l, l ∈ exceptEntries.map entryLine ↔ ∃ f ∈ exceptSrc, l ∈ fileLines f := by
  have h1 : ∀ l ∈ exceptEntries.map entryLine, ∃ f ∈ exceptSrc, l ∈ fileLines f := by decide +kernel
  have h2 : ∀ f ∈ exceptSrc, ∀ l ∈ fileLines f, l ∈ exceptEntries.map entryLine := by decide +kernel
  exact ⟨by decide +kernel, fun l => ⟨h1 l, fun ⟨f, hf, hl⟩ => h2 f hf l hl⟩⟩

/-- No file is cut off in the middle of a line. -/
theorem C48_newline : ∀ f ∈ exceptSrc, f.getLast? = some 10 := by decide +kernel

/-- Every line is an entry line the generator can read. -/
theorem C48_lines : ∀ e ∈ exceptEntries, GoodEntry e := by decide +kernel

/-- No word occurs twice. -/
theorem C48_distinct : (exceptEntries.map DEntry.word).Nodup := by decide +kernel

instance decForward : (p q : Int) → (s : List Syl) → Decidable (Forward p q s)
  | p, q, [] => inferInstanceAs (Decidable (p = q))
  | p, q, s :: ss =>
    have := decForward s.endPos q ss
    inferInstanceAs (Decidable (place p < place s.endPos ∧ Forward s.endPos q ss))

/-- Every entry decodes to at least one pronunciation; every pronunciation consists of valid syllables and leads
strictly forward from the beginning of the word to its end. -/
theorem C48_readings : ∀ e ∈ exceptEntries, ∃ strs, SylString.makeSylStrings e.data = .ok strs ∧ strs ≠ [] ∧
    ∀ str ∈ strs, (∀ s ∈ str, ValidSyl s) ∧ Forward 0 e.word.length str := by
  have h : ∀ e ∈ exceptEntries, (match SylString.makeSylStrings e.data with
      | .ok strs => decide (strs ≠ [] ∧ ∀ str ∈ strs, (∀ s ∈ str, ValidSyl s) ∧ Forward 0 e.word.length str)
      | _ => false) = true := by decide +kernel
  intro e he
  have := h e he
  cases hm : SylString.makeSylStrings e.data with
  | ok strs => rw [hm] at this; exact ⟨strs, rfl, of_decide_eq_true this⟩
  | _ => rw [hm] at this; cases this

/-- Hence a dictionary made from any of the lines in any order is one the parser properties apply to. -/
theorem C48_good (es : List DEntry) (h : ∀ e ∈ es, e ∈ exceptEntries) : GoodLook (lastData es) := by
  intro v data hl
  unfold lastData at hl
  obtain ⟨e, he, rfl⟩ := Option.map_eq_some_iff.mp hl
  have hw := List.find?_some he
  obtain rfl := of_decide_eq_true hw
  obtain ⟨strs, h1, -, h3⟩ := C48_readings e (h e (List.mem_reverse.mp (List.mem_of_find?_eq_some he)))
  exact ⟨strs, h1, h3⟩

/-- Every word of the data is found with its own data. -/
theorem C48_found : ∀ e ∈ exceptEntries, lastData exceptEntries e.word = some e.data := by decide +kernel

/-- Lookup contents of a dictionary generated from good lines and loaded into a parser. -/
theorem holds_generated (junk : Byte) (es : List DEntry) (hne : es ≠ []) (hg : ∀ e ∈ es, GoodEntry e)
    (hsz : (es.map fun e => e.data.length + 1).sum < 0x80000000) (p0 : Parser) :
    ∃ t b p, Gen.genDict junk (es.flatMap entryLine) = .ok (.success t b) ∧
      p0.loadExceptDict (Gen.GenResult.file (.success t b)) = .ok (p, true) ∧ p.thBrk = p0.thBrk ∧
      Holds p.exceptDict (lastData es) := by
  obtain ⟨t, b, h1, h2, h3⟩ := C31_lookup junk es hne hg
  obtain ⟨d, hd, hrep⟩ := h3 (by omega) Dict.empty
  refine ⟨t, b, { p0 with exceptDict := some d }, h1, ?_, rfl, hrep⟩
  unfold Parser.loadExceptDict Gen.GenResult.file
  rw [hd]; rfl

/-- The shipped dictionary: generated from except.tsv it loads, and then satisfies the hypotheses of the parser
properties. -/
theorem C48_dict (junk : Byte) (p0 : Parser) :
    ∃ t b p, Gen.genDict junk (exceptEntries.flatMap entryLine) = .ok (.success t b) ∧
      p0.loadExceptDict (Gen.GenResult.file (.success t b)) = .ok (p, true) ∧ p.thBrk = p0.thBrk ∧
      Holds p.exceptDict (lastData exceptEntries) ∧ GoodLook (lastData exceptEntries) := by
  obtain ⟨t, b, p, h1, h2, h3, h4⟩ := holds_generated junk exceptEntries (by decide) C48_lines (by decide +kernel) p0
  exact ⟨t, b, p, h1, h2, h3, h4, C48_good _ fun _ h => h⟩

end Thpronun
