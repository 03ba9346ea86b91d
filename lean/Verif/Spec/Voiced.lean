import Verif.Spec.Heard

/-! # The vowel and the tone of a syllable are those that are written

Which vowels a syllable may have for the vowel signs that stand in it, and which tone for its tone mark and its
consonants. Nothing else of the spelling rules is used, except the tone rules themselves (`spokenTone`). -/

namespace Thpronun.Spec

/-- The vowel signs. -/
def vowelSigns : U16Str := u!"ะัาำิีึืุูเแโใไๅ็"

/-- The tone marks. -/
def toneMarks : U16Str := u!"่้๊๋"

/-- How the vowels are written: signs in this order, vowel, and the letters of which one belongs to the vowel (any letters
if there are none). -/
def spellings : List (U16Str × Vowel × U16Str) :=
  [([], VW.A, []), ([], VW.O, []), ([], VW.AUU, u!"อรบ"), ([], VW.UAA, u!"ว"), ([], VW.I, u!"ฤฦ"), ([], VW.UE, u!"ฤฦ"),
   (u!"ะ", VW.A, []), (u!"ั", VW.A, []), (u!"ั", VW.UAA, u!"ว"), (u!"ัะ", VW.UA, u!"ว"), (u!"า", VW.AA, []),
   (u!"า", VW.UEE, u!"ฤฦ"), (u!"ๅ", VW.UEE, u!"ฤฦ"), (u!"ำ", VW.A, []), (u!"ิ", VW.I, []), (u!"ี", VW.II, []), (u!"ึ", VW.UE, []),
   (u!"ื", VW.UEE, []), (u!"ุ", VW.U, []), (u!"ู", VW.UU, []), (u!"็", VW.AU, u!"อ"), (u!"เ", VW.EE, []), (u!"เ", VW.OEE, u!"อย"),
   (u!"เะ", VW.E, []), (u!"เะ", VW.OE, u!"อ"), (u!"เ็", VW.E, []), (u!"เิ", VW.OEE, []), (u!"เี", VW.IAA, u!"ย"),
   (u!"เีะ", VW.IA, u!"ย"), (u!"เื", VW.UEAA, u!"อ"), (u!"เืะ", VW.UEA, u!"อ"), (u!"เา", VW.A, []), (u!"เาะ", VW.AU, []),
   (u!"แ", VW.AEE, []), (u!"แะ", VW.AE, []), (u!"แ็", VW.AE, []), (u!"โ", VW.OO, []), (u!"โะ", VW.O, []), (u!"ไ", VW.A, []),
   (u!"ใ", VW.A, [])]

/-- One of the letters `cs`, if there are any, stands between `a` and `b`. -/
def HasOne (w : U16Str) (a b : Nat) (cs : U16Str) : Prop := cs = [] ∨ ∃ m c, a ≤ m ∧ m < b ∧ w[m]? = some c ∧ c ∈ cs

/-- The tone mark among these marks: at most one. -/
def MarkIs (l : U16Str) (m : Tone) : Prop := (l = [] ∧ m = .SAMAN) ∨ ∃ c, l = [c] ∧ (c, m) ∈ marks

/-- The class that decides the tone of a syllable with the initial consonant at `i`: that of the consonant, or if it is a
sonorant that of the consonant before it. -/
def ToneLetter (w : U16Str) (i : Nat) (cls : InitConsClass) : Prop :=
  (∃ c, w[i]? = some c ∧ (c ∈ classLetters cls ∨ (c ∈ u!"ฤฦ" ∧ cls = .LOWS))) ∨
  (∃ j c d, j + 1 = i ∧ w[j]? = some c ∧ c ∈ classLetters cls ∧ w[i]? = some d ∧ (d ∈ classLetters .LOWS ∨ d = ch!"ฤ"))

/-- From `e` to `b` there are no vowel signs and tone marks but ◌ิ and ◌ุ that are silenced or that stand on a final
ฒ ต ธ ร. -/
def SilentRest (w : U16Str) (f : EndConsClass) (e b : Nat) : Prop :=
  ∀ m c, e ≤ m → m < b → w[m]? = some c → c ∈ vowelSigns ++ toneMarks →
    IU c ∧ (w[m + 1]? = some ch!"์" ∨ (e < m ∧ ∃ d, w[m - 1]? = some d ∧ d ∈ u!"ฒตธร" ∧ d ∈ finalLetters f))

/-- The place of a node and the leading vowel that is still to be heard there: that of a syllable which is read as two. -/
def PlaceLead (w : U16Str) (n : Int) (a : Nat) (l : U16Str) : Prop :=
  (n = (a : Int) ∧ l = []) ∨ ∃ p q : Nat, n = spanPos p q ∧ p < q ∧ q ≤ p + 40 ∧ p < w.length ∧ a = firstCons w p + 1 ∧
    l = piece w p (firstCons w p)

/-- `x` is the first of two syllables, with an unwritten vowel: of the letters from `a` on it has the first consonant only,
and leaves the leading vowel `l` to the next one. -/
def FirstHalf (w : U16Str) (a b : Nat) (l : U16Str) (x : Syl) : Prop :=
  x.literal = [] ∧ b = firstCons w a + 1 ∧ l = piece w a (firstCons w a) ∧ (x.vowel = VW.A ∨ x.vowel = VW.AUU) ∧ x.eCons = .NONE ∧
  ∃ c cls, w[firstCons w a]? = some c ∧ Heard [] c x.iCons1 ∧ c ∈ classLetters cls ∧ x.tone = spokenTone cls x.vowel .NONE .SAMAN

/-- `x` is a syllable in full: vowel and tone are those written between `a` and `b`, with the leading vowel `l` from before. -/
def FullSyl (w : U16Str) (a : Nat) (l : U16Str) (b : Nat) (x : Syl) : Prop :=
  x.literal = [] ∧ ∃ i e cls mark,
    (i = firstCons w a ∨ (i = firstCons w a + 1 ∧ w[firstCons w a]? = some ch!"ห")) ∧
    (∃ c, w[i]? = some c ∧ Heard [] c x.iCons1) ∧ ToneLetter w i cls ∧ a ≤ e ∧ e ≤ b ∧
    (∃ cs, (l ++ ((piece w a e).filter fun c => c ∈ vowelSigns), x.vowel, cs) ∈ spellings ∧ HasOne w a b cs) ∧
    MarkIs ((piece w a e).filter fun c => c ∈ toneMarks) mark ∧
    x.tone = spokenTone cls x.vowel x.eCons mark ∧ SilentRest w x.eCons e b

/-- `x` is the name of the letter at `a`, in an abbreviation. -/
def NameOf (ct : CType) (brk : List Int) (w : U16Str) (a b : Nat) (x : Syl) : Prop :=
  x.literal = [] ∧ x.vowel = VW.AUU ∧ x.eCons = .NONE ∧ (∀ m, a < m → m < b → w[m]? = some ch!".") ∧ a < b ∧
  (∃ p t q, TokenTo ct w brk p t ∧ IsAbbr ct w p t q ∧ p ≤ a ∧ a < q) ∧
  ∃ c cls, w[a]? = some c ∧ Heard [] c x.iCons1 ∧ c ∈ classLetters cls ∧ x.tone = spokenTone cls VW.AUU .NONE .SAMAN

/-- `x` belongs to a dictionary word, of which it begins at `a`. -/
def OfWord (look : List Nat → Option Str) (w : U16Str) (a b : Nat) : Prop :=
  ∃ p q, look (piece w p q) ≠ none ∧ p ≤ a ∧ a < q ∧ ∀ m, q ≤ m → m < b → w[m]? = some ch!"."

/-- `x` is other text. -/
def OtherText (w : U16Str) (a b : Nat) (x : Syl) : Prop :=
  x.literal ≠ [] ∧ ∀ m c, a ≤ m → m < b → w[m]? = some c → c ∉ vowelSigns ++ toneMarks

/-- Vowel and tone of the syllable `x` are those written between `a` and `b`, with the leading vowel `l` from before; the
leading vowel `l'` is left to the next syllable. -/
def VoicedIn (ct : CType) (look : List Nat → Option Str) (brk : List Int) (w : U16Str) (a : Nat) (l : U16Str) (b : Nat)
    (l' : U16Str) (x : Syl) : Prop :=
  OfWord look w a b ∨ (OtherText w a b x ∧ l = [] ∧ l' = []) ∨ (NameOf ct brk w a b x ∧ l = [] ∧ l' = []) ∨
  (FullSyl w a l b x ∧ l' = []) ∨ (FirstHalf w a b l' x ∧ l = [])

/-- Vowels and tones of all syllables from `a` on, one after the other, are those written. -/
def AllVoiced (ct : CType) (look : List Nat → Option Str) (brk : List Int) (w : U16Str) : Nat → U16Str → List Syl → Prop
  | a, l, [] => a = w.length ∧ l = []
  | a, l, x :: xs => ∃ b l', VoicedIn ct look brk w a l b l' x ∧ AllVoiced ct look brk w b l' xs

/-- The syllables of the dictionary words that occur in `w` begin and end in their words. -/
def WordsHeld (look : List Nat → Option Str) (w : U16Str) : Prop :=
  ∀ p q data strs str, look (piece w p q) = some data → DataIs data strs → str ∈ strs →
    ∀ e ∈ wordEdges 0 0 str, ∃ a b, PlaceOf (piece w p q) e.key a ∧ PlaceOf (piece w p q) e.target b ∧
      a < b ∧ b ≤ (piece w p q).length

/-- The vowel signs and tone marks are Thai text. -/
def SignsKnown (ct : CType) : Prop := ∀ c ∈ vowelSigns ++ toneMarks, ct.isVowel c = true ∨ ct.isTone c = true ∨ c ∈ u!"็์."

end Thpronun.Spec
