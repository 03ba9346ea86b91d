import Verif.Spec.Output
import Verif.Spec.Simple

/-! # Letters of the notations

Romanization by the Royal Thai General System (RTGS, Royal Institute 1999), given by Thai letters and vowel patterns;
phonetic notation and Soundex by how they differ from RTGS and from the descriptor letters. -/

namespace Thpronun.Spec

/-- RTGS: Thai letters, as initial, as final. -/
def rtgs : List (U16Str × Str × Str) := [
  (u!"ก", b!"k", b!"k"), (u!"ขฃคฅฆ", b!"kh", b!"k"), (u!"ง", b!"ng", b!"ng"), (u!"จฉชฌ", b!"ch", b!"t"),
  (u!"ซศษส", b!"s", b!"t"), (u!"ญ", b!"y", b!"n"), (u!"ฎด", b!"d", b!"t"), (u!"ฏต", b!"t", b!"t"),
  (u!"ฐฑฒถทธ", b!"th", b!"t"), (u!"ณน", b!"n", b!"n"), (u!"บ", b!"b", b!"p"), (u!"ป", b!"p", b!"p"),
  (u!"ผพภ", b!"ph", b!"p"), (u!"ฝฟ", b!"f", b!"p"), (u!"ม", b!"m", b!"m"), (u!"ย", b!"y", b!"i"),
  (u!"ร", b!"r", b!"n"), (u!"ลฬ", b!"l", b!"n"), (u!"ว", b!"w", b!"o"), (u!"หฮ", b!"h", b!""), (u!"อ", b!"", b!"")]

/-- RTGS of a vowel pattern of an open syllable (what stands before, above or below, and after the onset). -/
def rtgsOpen : List (U16Str × U16Str × U16Str × Str) := [
  ([], [], u!"ะ", b!"a"), ([], [], u!"า", b!"a"), ([], u!"ิ", [], b!"i"), ([], u!"ี", [], b!"i"),
  ([], u!"ึ", [], b!"ue"), ([], u!"ื", u!"อ", b!"ue"), ([], u!"ุ", [], b!"u"), ([], u!"ู", [], b!"u"),
  (u!"เ", [], u!"ะ", b!"e"), (u!"เ", [], [], b!"e"), (u!"แ", [], u!"ะ", b!"ae"), (u!"แ", [], [], b!"ae"),
  (u!"โ", [], u!"ะ", b!"o"), (u!"โ", [], [], b!"o"), (u!"เ", [], u!"าะ", b!"o"), ([], [], u!"อ", b!"o"),
  (u!"เ", [], u!"อะ", b!"oe"), (u!"เ", [], u!"อ", b!"oe"), ([], u!"ั", u!"วะ", b!"ua"), ([], u!"ั", u!"ว", b!"ua"),
  (u!"เ", u!"ี", u!"ยะ", b!"ia"), (u!"เ", u!"ี", u!"ย", b!"ia"), (u!"เ", u!"ื", u!"อะ", b!"uea"),
  (u!"เ", u!"ื", u!"อ", b!"uea"), ([], [], u!"ำ", b!"am"), (u!"ใ", [], [], b!"ai"), (u!"ไ", [], [], b!"ai"),
  (u!"ไ", [], u!"ย", b!"ai"), (u!"เ", [], u!"า", b!"ao"), (u!"เ", [], u!"ย", b!"oei"), ([], [], u!"รร", b!"an")]

/-- RTGS of a vowel pattern before a final consonant. -/
def rtgsClosed : List (U16Str × U16Str × U16Str × Str) := [
  ([], u!"ั", [], b!"a"), ([], [], u!"า", b!"a"), ([], u!"ิ", [], b!"i"), ([], u!"ี", [], b!"i"),
  ([], u!"ึ", [], b!"ue"), ([], u!"ื", [], b!"ue"), ([], u!"ุ", [], b!"u"), ([], u!"ู", [], b!"u"),
  (u!"เ", u!"็", [], b!"e"), (u!"เ", [], [], b!"e"), (u!"แ", u!"็", [], b!"ae"), (u!"แ", [], [], b!"ae"),
  ([], [], [], b!"o"), (u!"โ", [], [], b!"o"), ([], u!"็", u!"อ", b!"o"), ([], [], u!"อ", b!"o"),
  (u!"เ", u!"ิ", [], b!"oe"), ([], [], u!"ว", b!"ua"), (u!"เ", u!"ี", u!"ย", b!"ia"), (u!"เ", u!"ื", u!"อ", b!"uea"),
  ([], [], u!"รร", b!"a")]

/-- The second consonant of a cluster, by its letter. -/
def secondLetter : List (SecInitCons × U16Str) := [(SC.NONE, []), (SC.RA, u!"ร"), (SC.LA, u!"ล"), (SC.WA, u!"ว")]

/-- RTGS of onset letters: first letter and, if any, second letter of a cluster. -/
def RtgsOnset (s : Syl) (t : Str) : Prop :=
  ∃ r ∈ rtgs, (∃ c ∈ r.1, c ∈ soundLetters s.iCons1) ∧ ∃ l ∈ secondLetter, l.1 = s.iCons2 ∧
    ((l.2 = [] ∧ t = r.2.1) ∨ ∃ r' ∈ rtgs, (∃ c ∈ r'.1, l.2 = [c]) ∧ t = r.2.1 ++ r'.2.1)

/-! ## Phonetic notation -/

/-- The qualities of the vowels, with the letters of the short and the long vowel. -/
def qualities : List (Vowel × Vowel × Str) := [
  (VW.A, VW.AA, b!"a"), (VW.I, VW.II, b!"i"), (VW.UE, VW.UEE, b!"ue"), (VW.U, VW.UU, b!"u"), (VW.E, VW.EE, b!"e"),
  (VW.AE, VW.AEE, b!"ae"), (VW.O, VW.OO, b!"o"), (VW.AU, VW.AUU, b!"ao"), (VW.OE, VW.OEE, b!"oe"),
  (VW.IA, VW.IAA, b!"ia"), (VW.UEA, VW.UEAA, b!"uea"), (VW.UA, VW.UAA, b!"ua")]

/-- The long vowel: i and e glide to y; u, o and ao glide to w; the others double the last letter. -/
def lengthen (q : Str) : Str :=
  if q = b!"i" ∨ q = b!"e" then b!"y" else if q = b!"u" ∨ q = b!"o" ∨ q = b!"ao" then b!"w" else q.getLast?.toList

/-- The letters of initial sounds, by Thai letter: as in RTGS, except จ. -/
def PhoneticLetter (c : Nat) (t : Str) : Prop := (c = ch!"จ" ∧ t = b!"j") ∨ (c ≠ ch!"จ" ∧ ∃ r ∈ rtgs, c ∈ r.1 ∧ t = r.2.1)

/-- The final sounds, by the initial sound that they are an incomplete form of. -/
def finalSound : List (EndConsClass × InitConsSound) := [
  (.KOK, .KA), (.KOT, .TA), (.KOP, .PA), (.KONG, .NGA), (.KON, .NA), (.KOM, .MA), (.KOEY, .YA), (.KOEW, .WA)]

/-- The numbers of the tones. -/
def toneDigit : Tone → Str
  | .SAMAN => b!"0" | .EK => b!"1" | .THO => b!"2" | .TRI => b!"3" | .CHATTAWA => b!"4" | .INVALID => []

/-- The phonetic text: the letters of the onset, of the vowel (with h if short), of the final, and the tone number. -/
def PhoneticText (s : Syl) (t : Str) : Prop :=
  ∃ a b v f, t = a ++ b ++ v ++ f ++ toneDigit s.tone ∧
    (∀ c ∈ soundLetters s.iCons1, PhoneticLetter c a) ∧
    (∀ l ∈ secondLetter, l.1 = s.iCons2 → (l.2 = [] ∧ b = []) ∨ ∃ c, l.2 = [c] ∧ PhoneticLetter c b) ∧
    (∀ q ∈ qualities, (q.1 = s.vowel → v = q.2.2 ++ b!"h") ∧ (q.2.1 = s.vowel → v = q.2.2 ++ lengthen q.2.2)) ∧
    (s.eCons = .NONE → f = []) ∧
    (∀ x ∈ finalSound, x.1 = s.eCons → ∀ c ∈ soundLetters x.2, PhoneticLetter c f)

end Thpronun.Spec
