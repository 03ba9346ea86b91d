import Verif.Spec.Reading

/-! # The sounds of a pronunciation are written in the text

Which letters a syllable is heard from: its consonants one after the other, a final consonant after them. Nothing else of
the spelling rules is used. -/

namespace Thpronun.Spec

/-- The letter `c` is heard as `snd` at the beginning of a syllable: a consonant, or ฤ or ฦ. `X`: irregular sounds of
letters. -/
def Heard (X : List (Nat × InitConsSound)) (c : Nat) (snd : InitConsSound) : Prop :=
  c ∈ soundLetters snd ∨ (c = ch!"ฤ" ∧ snd = .RA) ∨ (c = ch!"ฦ" ∧ snd = .LA) ∨ (c, snd) ∈ X

/-- The letters of the second consonants. -/
def secondLetters : List (SecInitCons × U16Str) := [(SC.RA, u!"รฤ"), (SC.LA, u!"ล"), (SC.WA, u!"ว")]

/-- The vowel `v` stands before the consonant at `i`, with at most one consonant between. -/
def LedBy (w : U16Str) (i v : Nat) : Prop := ∃ n, (n + 1 = i ∨ n + 2 = i) ∧ w[n]? = some v

/-- The second consonant `s` at `k`, if there is one: the position after it. -/
def SecondAt (w : U16Str) (k : Nat) (s : SecInitCons) (k' : Nat) : Prop :=
  (s = SC.NONE ∧ k' = k) ∨ (k' = k + 1 ∧ ∃ c cs, w[k]? = some c ∧ (s, cs) ∈ secondLetters ∧ c ∈ cs)

/-- The final `f` of a syllable whose consonants begin at `i` and end before `k`: there is none, or one of its letters
stands from there up to `b`, or it is in the vowel: ำ, เ◌า, ไ, ใ. -/
def FinalBy (w : U16Str) (i k b : Nat) (f : EndConsClass) : Prop :=
  f = .NONE ∨
  (∃ j c, k ≤ j ∧ j ≤ b ∧ w[j]? = some c ∧ c ∈ finalLetters f ∧ f ≠ .NONE) ∨
  (f = .KOM ∧ ∃ j, k ≤ j ∧ j < b ∧ w[j]? = some ch!"ำ") ∨
  (f = .KOEW ∧ LedBy w i ch!"เ" ∧ ∃ j, k ≤ j ∧ j < b ∧ w[j]? = some ch!"า") ∨
  (f = .KOEY ∧ (LedBy w i ch!"ไ" ∨ LedBy w i ch!"ใ"))

/-- The syllable `x` is written between `a` and `b`. A final consonant may be the letter at `b`, with which the next
syllable can begin. -/
def WrittenIn (X : List (Nat × InitConsSound)) (w : U16Str) (a b : Nat) (x : Syl) : Prop :=
  (x.literal ≠ [] ∧ ∃ i, a ≤ i ∧ i + x.literal.length ≤ b ∧ ∀ (j : Nat) c, x.literal[j]? = some c → w[i + j]? = some c) ∨
  (x.literal = [] ∧ ∃ i k c, a ≤ i ∧ w[i]? = some c ∧ Heard X c x.iCons1 ∧ SecondAt w (i + 1) x.iCons2 k ∧ k ≤ b ∧
    FinalBy w i k b x.eCons)

/-- The syllables are written one after the other, from `a` on. -/
def Written (X : List (Nat × InitConsSound)) (w : U16Str) : Nat → List Syl → Prop
  | a, [] => a ≤ w.length
  | a, x :: xs => ∃ b, WrittenIn X w a b x ∧ Written X w b xs

/-! ## Dictionaries -/

/-- The first consonant of a syllable written at `p`: after a leading vowel. -/
def firstCons (w : U16Str) (p : Nat) : Nat :=
  if (w[p]?).any fun c => decide (0x0e40 ≤ c ∧ c ≤ 0x0e44) then p + 1 else p

/-- The place in the text of the end position `n`: a position, or behind the first consonant of a syllable from `p` to
`q` that is read as two. -/
def PlaceOf (w : U16Str) (n : Int) (a : Nat) : Prop :=
  n = (a : Int) ∨ ∃ p q : Nat, n = spanPos p q ∧ p < q ∧ q ≤ p + 40 ∧ p < w.length ∧ a = firstCons w p + 1

/-- The reading `str` of the dictionary word `v` is written in the word, every syllable between the end position before it
and its own. -/
def EntryWritten (X : List (Nat × InitConsSound)) (v : U16Str) (str : SylString) : Prop :=
  ∀ e ∈ wordEdges 0 0 str, ∃ a b, PlaceOf v e.key a ∧ PlaceOf v e.target b ∧ WrittenIn X v a b e.val

/-- The readings of the dictionary words that occur in `w` are written. -/
def WordsWritten (X : List (Nat × InitConsSound)) (look : List Nat → Option Str) (w : U16Str) : Prop :=
  ∀ p q data strs str, look (piece w p q) = some data → DataIs data strs → str ∈ strs → EntryWritten X (piece w p q) str

/-- The irregular sounds in the dictionary that is shipped: ทร as ซ, ฑ as ด. -/
def shippedSounds : List (Nat × InitConsSound) := [(ch!"ท", .SA), (ch!"ฑ", .DA)]

/-! ## The order of the letters -/

/-- What a syllable begins with: its consonants, or the characters of other text. -/
def onsetOf (x : Syl) : List (InitConsSound ⊕ Nat) :=
  if x.literal ≠ [] then x.literal.map .inr
  else .inl x.iCons1 ::
    (if x.iCons2 = SC.RA then [.inl .RA] else if x.iCons2 = SC.LA then [.inl .LA] else if x.iCons2 = SC.WA then [.inl .WA] else [])

/-- It is heard from the character `c`. -/
def HeardAs (X : List (Nat × InitConsSound)) : InitConsSound ⊕ Nat → Nat → Prop
  | .inl snd, c => Heard X c snd
  | .inr d, c => c = d

/-- A letter that can be heard at the beginning of a syllable. -/
def CanSound (c : Nat) : Prop := IsConsonant c ∨ c = ch!"ฤ" ∨ c = ch!"ฦ"

instance : DecidablePred CanSound := fun c => by unfold CanSound IsConsonant; infer_instance

/-! ## Letters that are not heard -/

/-- The letter at `m` is silenced: thanthakhat stands on it, or on the next letter, or on its vowel sign ◌ิ or ◌ุ. -/
def Silenced (ct : CType) (w : U16Str) (m : Nat) : Prop :=
  w[m + 1]? = some ch!"์" ∨ (w[m + 2]? = some ch!"์" ∧ ∃ d, w[m + 1]? = some d ∧ (ct.isCons d = true ∨ IU d))

/-- The letter at `m` has ร beside it, or beside a silenced letter beside it. -/
def BesideRo (w : U16Str) (m : Nat) : Prop :=
  w[m + 1]? = some ch!"ร" ∨ (w[m + 2]? = some ch!"์" ∧ w[m + 3]? = some ch!"ร") ∨
  (0 < m ∧ w[m - 1]? = some ch!"ร") ∨ (2 < m ∧ w[m - 1]? = some ch!"์" ∧ w[m - 3]? = some ch!"ร")

/-- The consonant `c` at `m` belongs to the vowel `v`, which is รร or written with อ, ว or ย. -/
def VowelLetter (w : U16Str) (v : Vowel) (m c : Nat) : Prop :=
  (c = ch!"ร" ∧ v = VW.A ∧ BesideRo w m) ∨
  (c = ch!"อ" ∧ v ∈ [VW.UEE, VW.AU, VW.AUU, VW.UEA, VW.UEAA, VW.OE, VW.OEE]) ∨
  (c = ch!"ว" ∧ v ∈ [VW.UA, VW.UAA]) ∨
  (c = ch!"ย" ∧ v ∈ [VW.IA, VW.IAA])

/-- The consonant `c` at `m` is not heard in a syllable whose initial consonants stand from `i` to before `k`, with the
vowel `v` and the final consonant at `f`: it is silenced; it is ห before a sonorant that begins the syllable; it is ร
after an initial จ ซ ศ ส or after a final ก ค ช ต ท; or it belongs to the vowel and stands before the final consonant. -/
def Unheard (ct : CType) (w : U16Str) (i k : Nat) (v : Vowel) (f : Option Nat) (m c : Nat) : Prop :=
  (k ≤ m ∧ Silenced ct w m) ∨
  (c = ch!"ห" ∧ m + 1 = i ∧ ∃ d, w[i]? = some d ∧ d ∈ classLetters .LOWS) ∨
  (c = ch!"ร" ∧ m = i + 1 ∧ k = i + 1 ∧ ∃ d, w[i]? = some d ∧ d ∈ u!"จซศส") ∨
  (c = ch!"ร" ∧ ∃ j d, f = some j ∧ m = j + 1 ∧ w[j]? = some d ∧ d ∈ u!"กคชตท") ∨
  (k ≤ m ∧ (∀ j, f = some j → m < j) ∧ VowelLetter w v m c)

/-- The place `m` lies in a word of the dictionary. -/
def InWord (look : List Nat → Option Str) (w : U16Str) (m : Nat) : Prop :=
  ∃ p q, p ≤ m ∧ m < q ∧ look (piece w p q) ≠ none

/-- All consonants between `a` and `b` belong to the syllable `x`: they are its initial and second one, its final one
(which may be the letter at `b`), or are not heard. What a dictionary word leaves out is up to the dictionary. -/
def Accounted (ct : CType) (look : List Nat → Option Str) (w : U16Str) (a b : Nat) (x : Syl) : Prop :=
  (∀ m c, a ≤ m → m < b → w[m]? = some c → ct.isCons c = true → InWord look w m) ∨
  (x.literal ≠ [] ∧ ∀ m c, a ≤ m → m < b → w[m]? = some c → ct.isCons c = false) ∨
  (x.literal = [] ∧ ∃ (i k : Nat) (f : Option Nat), a ≤ i ∧ k ≤ b ∧ (∃ c, w[i]? = some c ∧ Heard [] c x.iCons1) ∧
    SecondAt w (i + 1) x.iCons2 k ∧
    (∀ j, f = some j → k ≤ j ∧ j ≤ b ∧ ∃ c, w[j]? = some c ∧ c ∈ finalLetters x.eCons ∧ x.eCons ≠ .NONE) ∧
    ∀ m c, a ≤ m → m < b → w[m]? = some c → ct.isCons c = true →
      (i ≤ m ∧ m < k) ∨ f = some m ∨ Unheard ct w i k x.vowel f m c)

/-- All consonants from `a` on belong to the syllables, one after the other. -/
def AllAccounted (ct : CType) (look : List Nat → Option Str) (w : U16Str) : Nat → List Syl → Prop
  | a, [] => a = w.length
  | a, x :: xs => ∃ b, Accounted ct look w a b x ∧ AllAccounted ct look w b xs

/-- The syllables of the dictionary words that occur in `w` end in their words. -/
def WordsPlaced (look : List Nat → Option Str) (w : U16Str) : Prop :=
  ∀ p q data strs str, look (piece w p q) = some data → DataIs data strs → str ∈ strs →
    ∀ e ∈ wordEdges 0 0 str, ∃ a b, PlaceOf (piece w p q) e.key a ∧ PlaceOf (piece w p q) e.target b ∧ b ≤ (piece w p q).length

/-- The consonant `c` is heard in the syllable: at the beginning, as the second consonant, or at the end. -/
def HeardIn (c : Nat) (x : Syl) : Prop :=
  x.literal = [] ∧ (c ∈ soundLetters x.iCons1 ∨ (∃ cs, (x.iCons2, cs) ∈ secondLetters ∧ c ∈ cs) ∨
    (c ∈ finalLetters x.eCons ∧ x.eCons ≠ .NONE))

end Thpronun.Spec
