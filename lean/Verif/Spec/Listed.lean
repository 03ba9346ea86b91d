import Verif.Spec.Concat

/-! # Which pronunciations are listed for a word -/

namespace Thpronun.Spec

/-- The syllables of a pronunciation are those of a reading. -/
def IsPron (s : List Syl) (es : List (Entry Syl)) : Prop :=
  List.Forall₂ (fun x e => ceq x e.val = true ∧ x.endPos = e.target) s es

/-- A text whose readings do not mix: it has no periods, dictionary words in it have readings of one syllable,
บริ and จระ (read บอ-ริ, จอ-ระ besides บะ-หริ, จะ-หระ) do not occur, and what can be read from a consonant on can also be
read from it when it has been the final consonant of the syllable before. -/
structure Unmixed (ct : CType) (w : U16Str) (look : List Nat → Option Str) (brk : List Int) : Prop where
  dot : ch!"." ∉ w
  words : ∀ p q data strs str, look (piece w p q) = some data → DataIs data strs → str ∈ strs →
    str.length = 1
  bori : ¬ u!"บริ" <:+: w
  jora : ¬ u!"จระ" <:+: w
  link : ∀ q t l o r t' o' r', TokenTo ct w brk q t → Spelled ct w t q l o r → r.linked = true →
    TokenTo ct w brk r.stop t' → Spelled ct w t' r.stop false o' r' → Spelled ct w t' r.stop true o' r'

/-- Past the first character, no two consonants in a row are followed by a third one or by one of the vowels ฤ ะ ◌ั า ◌ิ
◌ี ◌ุ ◌ู. -/
def Sparse (ct : CType) (w : U16Str) : Prop :=
  ∀ i c d n, 0 < i → w[i]? = some c → ct.isCons c = true → w[i + 1]? = some d → ct.isCons d = true → w[i + 2]? = some n →
    n ∉ linkVowels ∧ ct.isCons n = false

end Thpronun.Spec
