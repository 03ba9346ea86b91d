import Verif.Spec.Respell
import Verif.Spec.Reading

/-! # Which spelled syllables cannot be respelled, and which texts have none of them -/

namespace Thpronun.Spec

/-- The initial sounds of the true clusters with r, l, w. -/
def clusterSounds (c : SecInitCons) : List InitConsSound :=
  if c = SC.RA then [.KA, .KHA, .DA, .TA, .THA, .BA, .PA, .PHA, .FA]
  else if c = SC.LA then [.KA, .KHA, .BA, .PA, .PHA, .FA]
  else if c = SC.WA then [.KA, .KHA] else []

/-- The true clusters that are written with a low letter only: ทร, พร, ฟร, ฟล. -/
def lowClusters : List (InitConsSound × SecInitCons) := [(.THA, SC.RA), (.PHA, SC.RA), (.FA, SC.RA), (.FA, SC.LA)]

/-- The tones that only a high letter gives. -/
def highTones (dead : Bool) : List Tone := if dead then [.EK] else [.EK, .CHATTAWA]

/-- The tones of a short syllable that are written without a tone mark: with a mid letter, or with a low or high one. -/
def unmarkedTones (mid dead : Bool) : List Tone :=
  match mid, dead with
  | true, true => [.EK]
  | true, false => [.SAMAN]
  | false, true => [.EK, .TRI]
  | false, false => [.SAMAN, .CHATTAWA]

/-- The sounds with mid letters. -/
def midSounds : List InitConsSound := [.KA, .JA, .DA, .TA, .BA, .PA, .A]

/-- A syllable as written that has no regular respelling: the long e or the i of ฤ before ย; ae before a final with a
tone that needs a mark; a cluster that is none, or one with a tone that only a high letter gives. -/
def Irregular (o : Onset) (r : Rime) : Prop :=
  let tone := (spoken o r).tone
  let dead := decide (Dead r.vowel r.final)
  (r.final = .KOEY ∧ (r.vowel = VW.EE ∨ r.vowel = VW.I)) ∨
  (r.vowel = VW.AE ∧ r.final ≠ .NONE ∧ tone ∉ unmarkedTones (decide (o.sound ∈ midSounds)) dead) ∨
  (o.second ≠ SC.NONE ∧ (o.sound ∉ clusterSounds o.second ∨
    ((o.sound, o.second) ∈ lowClusters ∧ tone ∈ highTones dead)))

/-- A text without the spellings that give irregular syllables. -/
structure Ordinary (ct : CType) (w : U16Str) : Prop where
  /-- ฤ after a consonant only in กฤ, คฤ, ตฤ, ทฤ, นฤ, ปฤ, พฤ, ศฤ, สฤ, หฤ -/
  ru : ∀ i c, w[i]? = some c → w[i + 1]? = some ch!"ฤ" → ct.isCons c = true → c ∈ u!"กคตทนปพศสห"
  /-- no ฤย -/
  ruY : ∀ i, w[i]? = some ch!"ฤ" → w[i + 1]? ≠ some ch!"ย" ∧
    ∀ c, w[i + 1]? = some c → ct.isTone c = true → w[i + 2]? ≠ some ch!"ย"
  /-- no ๋ on ทร, พร, ฟร, ฟล, ทฤ, พฤ -/
  chattawa : ∀ i c d, w[i]? = some c → w[i + 1]? = some d →
    (c, d) ∈ [(ch!"ท", ch!"ร"), (ch!"พ", ch!"ร"), (ch!"ฟ", ch!"ร"), (ch!"ฟ", ch!"ล"), (ch!"ท", ch!"ฤ"), (ch!"พ", ch!"ฤ")] →
    w[i + 2]? ≠ some ch!"๋" ∧ w[i + 3]? ≠ some ch!"๋"
  /-- no tone mark before ็ -/
  taikhu : ∀ i c, w[i]? = some c → ct.isTone c = true → w[i + 1]? ≠ some ch!"็"
  /-- no ย right after a silenced letter -/
  silentY : ∀ i, w[i]? = some ch!"์" → w[i + 1]? ≠ some ch!"ย"
  /-- no เ◌ย before a sign, as in เกยา -/
  ey : ∀ i k, w[i]? = some ch!"เ" → i + 2 ≤ k → w[k]? = some ch!"ย" →
    (∀ m, i < m → m < k → ∃ c, w[m]? = some c ∧ (ct.isCons c = true ∨ c = ch!"ฤ" ∨ ct.isTone c = true)) →
    ∀ c, w[k + 1]? = some c → ct.isCons c = true ∨ ct.isLdVowel c = true

end Thpronun.Spec
