import Verif.Spec.Listed

/-! # Texts that differ in letters of the same sound only -/

namespace Thpronun.Spec

/-- The letters that agree in sound, class and final consonant. -/
def soundGroups : List U16Str :=
  [u!"ขฃ", u!"คฅฆ", u!"ชฌ", u!"ฎด", u!"ฏต", u!"ฐถ", u!"ฑฒทธ", u!"ณน", u!"พภ", u!"ลฬ", u!"ศษส"]

/-- A place in the text where it matters which of the letters of a sound is written: the letters that may stand before
it (all if `none`), the letters that are special here, and the letters that may stand after it (all if `none`). -/
structure Place where
  before : Option U16Str
  letters : U16Str
  after : Option U16Str
deriving DecidableEq

/-- The places where a letter is not like the others of its sound. -/
def specialPlaces : List Place :=
  [⟨none, u!"ขคดตทพ", some u!"ร"⟩, ⟨none, u!"ศส", some u!"ร"⟩,  -- clusters: ตร, สร
   ⟨none, u!"ช", some u!"ร"⟩,                                    -- silent ร: เพชร
   ⟨none, u!"ทธนภส", some u!"ร"⟩,                                -- -อระ: ทรมาน
   ⟨none, u!"ขคพ", some u!"ล"⟩, ⟨some u!"กขคบปผพฟ", u!"ล", none⟩, -- clusters: กล
   ⟨none, u!"ขค", some u!"ว"⟩,                                   -- clusters: คว
   ⟨none, u!"ตท", some u!"ฤ"⟩, ⟨none, u!"ศส", some u!"ฤ"⟩, ⟨none, u!"น", some u!"ฤ"⟩, ⟨none, u!"คพ", some u!"ฤ"⟩,
   ⟨some u!"ฤฦ", u!"ณทษ", none⟩,                                 -- ฤทธิ์
   ⟨none, u!"ฒตธ", some u!"ิุ"⟩,                                 -- silent vowel: ชาติ
   ⟨some u!"บ", u!"ด", some u!"ิี"⟩]                              -- บดี

/-- The neighbours of the position `i` are those of the place. -/
def Place.Fits (x : Place) (w : U16Str) (i : Nat) : Prop :=
  (∀ s, x.before = some s → ∃ j c, i = j + 1 ∧ w[j]? = some c ∧ c ∈ s) ∧
  (∀ s, x.after = some s → ∃ c, w[i + 1]? = some c ∧ c ∈ s)

/-- Two consonants of the same sound, class and final consonant. -/
def SoundAlike (ct : CType) (c c' : Nat) : Prop :=
  ct.isCons c = true ∧ ct.isCons c' = true ∧ ∃ g ∈ soundGroups, c ∈ g ∧ c' ∈ g

/-- Character by character the same, except for letters that sound alike. -/
def SoundExchange (ct : CType) (w w' : U16Str) : Prop :=
  w.length = w'.length ∧ ∀ i : Nat, w[i]? = w'[i]? ∨ ∃ c c', w[i]? = some c ∧ w'[i]? = some c' ∧ SoundAlike ct c c'

/-- No exchanged letter is special at its place, in the one text or the other. -/
def NoneSpecial (w w' : U16Str) : Prop :=
  ∀ (i : Nat) (x : Place), x ∈ specialPlaces → x.Fits w i ∨ x.Fits w' i →
    ∀ c c', w[i]? = some c → w'[i]? = some c' → (c ∈ x.letters ↔ c' ∈ x.letters)

end Thpronun.Spec
