import Verif.Model.CType
import Verif.Spec.Syl
import Verif.Spec.Tone

/-! # Thai spelling: how a syllable may be written

A declarative grammar of the syllables that the parser is meant to recognise: onsets (initial consonants), rimes
(vowel signs, tone mark, final consonant, silenced letters) and the ways of combining them. It is given by what stands
where in the text; none of the parser's functions is used. Letters and classes are those of `Spec.Tone`.

`w` is the text, `t` the end of the token. -/

namespace Thpronun.Spec

/-- The beginning of a syllable: where it ends, an unwritten pre-syllable (as in "ตลาด"), the initial sound, the class
that decides the tone, the second consonant, and the vowel that comes with "ฤ". -/
structure Onset where
  stop : Nat
  pre : Option Syl
  sound : InitConsSound
  cls : InitConsClass
  second : SecInitCons
  inherent : Option Vowel

/-- The rest of a syllable as written: where it ends, whether the final consonant is also the initial of the next
syllable (then the end is before it), vowel, final, tone mark. -/
structure Rime where
  stop : Nat
  linked : Bool
  vowel : Vowel
  final : EndConsClass
  mark : Tone

/-- The short vowels. -/
def shortVowels : List Int := (b!"aivuexyztocw").map fun (n : Nat) => (n : Int)

/-- A dead syllable: stopped final, or short vowel without a final. -/
def Dead (v : Vowel) (f : EndConsClass) : Prop :=
  f = .KOK ∨ f = .KOT ∨ f = .KOP ∨ (f = .NONE ∧ v ∈ shortVowels)

instance (v f) : Decidable (Dead v f) := by unfold Dead; infer_instance

/-- The spoken tone: the tone rules, or the mark at face value where they say nothing. -/
def spokenTone (cls : InitConsClass) (v : Vowel) (f : EndConsClass) (mark : Tone) : Tone :=
  (prescribed cls mark (decide (Dead v f)) (decide (v ∈ shortVowels))).getD mark

/-- An open syllable of one consonant without tone mark. -/
def openSyl (snd : InitConsSound) (cls : InitConsClass) (v : Vowel) : Syl :=
  ⟨snd, SC.NONE, v, .NONE, spokenTone cls v .NONE .SAMAN, [], -1⟩

/-- The spoken syllable of an onset and a rime. -/
def spoken (o : Onset) (r : Rime) : Syl :=
  ⟨o.sound, o.second, r.vowel, r.final, spokenTone o.cls r.vowel r.final r.mark, [], r.stop⟩

section
variable (ct : CType) (w : U16Str) (t : Nat)

/-- The character `c` stands at `i`, inside the token. -/
def At (i : Nat) (c : Nat) : Prop := i < t ∧ w[i]? = some c

/-- A consonant or a leading vowel: a syllable can start here. -/
def StartAt (i : Nat) : Prop := ∃ c, At w t i c ∧ (ct.isCons c = true ∨ ct.isLdVowel c = true)

/-- The token ends here or a syllable can start. -/
def EndOrStart (i : Nat) : Prop := t ≤ i ∨ StartAt ct w t i

/-- SARA I or SARA U. -/
def IU (c : Nat) : Prop := c = ch!"ิ" ∨ c = ch!"ุ"

/-! ## Silenced letters -/

/-- A consonant with thanthakhat. -/
def Silent (i : Nat) : Prop := ∃ c, At w t i c ∧ ct.isCons c = true ∧ At w t (i + 1) ch!"์"

/-- A consonant, a character of the kind `A` and thanthakhat. -/
def Silent2 (A : Nat → Prop) (i : Nat) : Prop :=
  ∃ c d, At w t i c ∧ ct.isCons c = true ∧ At w t (i + 1) d ∧ A d ∧ At w t (i + 2) ch!"์"

/-- Past one silenced letter, if any. -/
def Skip (i k : Nat) : Prop := (Silent ct w t i ∧ k = i + 2) ∨ (¬ Silent ct w t i ∧ k = i)

/-- Past one silenced letter with SARA I or SARA U, if any. -/
def SkipIU (i k : Nat) : Prop := (Silent2 ct w t IU i ∧ k = i + 3) ∨ (¬ Silent2 ct w t IU i ∧ k = i)

/-- Past one or two silenced letters or one with SARA I or SARA U, if any. -/
def SkipAny (i k : Nat) : Prop :=
  (Silent ct w t i ∧ k = i + 2) ∨
  (¬ Silent ct w t i ∧ Silent2 ct w t (fun d => ct.isCons d = true ∨ IU d) i ∧ k = i + 3) ∨
  (¬ Silent ct w t i ∧ ¬ Silent2 ct w t (fun d => ct.isCons d = true ∨ IU d) i ∧ k = i)

/-! ## Tone marks and finals -/

/-- The tone marks. -/
def marks : List (Nat × Tone) :=
  [(ch!"่", .EK), (ch!"้", .THO), (ch!"๊", .TRI), (ch!"๋", .CHATTAWA)]

/-- An optional tone mark at `i`: the mark and the position after it. -/
def MarkAt (i : Nat) (m : Tone) (k : Nat) : Prop :=
  (∃ c, At w t i c ∧ ct.isTone c = true ∧ (c, m) ∈ marks ∧ k = i + 1) ∨
  ((∀ c, At w t i c → ct.isTone c = false) ∧ m = .SAMAN ∧ k = i)

/-- A consonant at `i` that can be a final, other than those in `excl`. -/
def FinalAt (i : Nat) (excl : U16Str) (c : Nat) (f : EndConsClass) : Prop :=
  At w t i c ∧ ct.isCons c = true ∧ c ∈ finalLetters f ∧ f ≠ .NONE ∧ c ∉ excl

/-- A final consonant with the silenced letters after it: syllable end, link flag, final. -/
def Closed (i : Nat) (excl : U16Str) (k : Nat) (b : Bool) (f : EndConsClass) : Prop :=
  ∃ c, FinalAt ct w t i excl c f ∧ b = false ∧ SkipAny ct w t (i + 1) k

/-- A silent second letter after the final at `i`: "ตร" etc., or "ติ", "ธุ" etc., at the end of the token or before a
new syllable. -/
def SilentTail (i : Nat) (c : Nat) : Prop :=
  EndOrStart ct w t (i + 2) ∧
  ((At w t (i + 1) ch!"ร" ∧ ct.isCons ch!"ร" = true ∧ c ∈ u!"กคชตท") ∨
   (∃ d, At w t (i + 1) d ∧ IU d ∧ c ∈ u!"ฒตธร"))

/-- The vowels after which a consonant is read twice, as a final and as the next initial. -/
def linkVowels : U16Str := u!"ฤะัาิีุู"

/-- The final `c` at `i` can be read again as an initial: before two consonants, a consonant with one of the vowels, or
one of the vowels (but not if the rest is a silent tail that ends the token). -/
def Links (i : Nat) (c : Nat) : Prop :=
  (∃ d n, At w t (i + 1) d ∧ ct.isCons d = true ∧ At w t (i + 2) n ∧ (n ∈ linkVowels ∨ ct.isCons n = true)) ∨
  (∃ d, At w t (i + 1) d ∧ ct.isCons d = false ∧ d ∈ linkVowels ∧ ¬ (IU d ∧ c ∈ u!"ฒตธร" ∧ i + 2 = t))

/-- A final consonant in full: with silenced letters, with a silent tail, or linked to the next syllable. -/
def ClosedX (i : Nat) (excl : U16Str) (k : Nat) (b : Bool) (f : EndConsClass) : Prop :=
  ∃ c, FinalAt ct w t i excl c f ∧
    ((b = false ∧ SkipAny ct w t (i + 1) k) ∨
     (SkipAny ct w t (i + 1) (i + 1) ∧
       ((b = false ∧ k = i + 2 ∧ SilentTail ct w t i c) ∨ (b = true ∧ k = i ∧ Links ct w t i c))))

/-! ## Onsets -/

/-- The letter `c` with its sound and class. -/
def Letter (c : Nat) (snd : InitConsSound) (cls : InitConsClass) : Prop :=
  ct.isCons c = true ∧ c ∈ soundLetters snd ∧ c ∈ classLetters cls

/-- The true clusters, with the second consonant. -/
def trueClusters : List (U16Str × Nat × SecInitCons) :=
  [(u!"กขคดตทบปพฟ", ch!"ร", SC.RA), (u!"กขคบปผพฟ", ch!"ล", SC.LA), (u!"กขค", ch!"ว", SC.WA)]

/-- Two written consonants `c` `d` at `i` as an onset. -/
def TwoLetters (i : Nat) (l : Bool) (c : Nat) (snd : InitConsSound) (cls : InitConsClass) (d : Nat)
    (snd2 : InitConsSound) (cls2 : InitConsClass) (o : Onset) : Prop :=
  -- a true cluster; after a linking final only กร, ตร, ปร
  (∃ cs s, (cs, d, s) ∈ trueClusters ∧ c ∈ cs ∧ (l = true → d = ch!"ร" ∧ c ∈ u!"กตป") ∧
    o = ⟨i + 2, none, snd, cls, s, none⟩) ∨
  -- จร, ซร, ศร, สร with silent ร
  (c ∈ u!"จซศส" ∧ d = ch!"ร" ∧ l = false ∧ o = ⟨i + 2, none, snd, cls, SC.NONE, none⟩) ∨
  -- leading ห
  (c = ch!"ห" ∧ cls2 = .LOWS ∧ o = ⟨i + 2, none, snd2, .HIGH, SC.NONE, none⟩) ∨
  -- an unwritten "a" in between; sonorants take the class of the first consonant
  o = ⟨i + 2, some (openSyl snd cls VW.A), snd2, if cls2 = .LOWS then cls else cls2, SC.NONE, none⟩

/-- A consonant before "ฤ" at `i` as an onset with inherent vowel. -/
def WithRu (i : Nat) (c : Nat) (snd : InitConsSound) (cls : InitConsClass) (o : Onset) : Prop :=
  let joined s v : Onset := ⟨i + 2, none, snd, cls, s, some v⟩
  let apart cls' v : Onset := ⟨i + 2, some (openSyl snd cls VW.A), .RA, cls', SC.NONE, some v⟩
  (c ∈ u!"กตทป" ∧ o = joined SC.RA VW.I) ∨
  (c ∈ u!"ศส" ∧ (o = joined SC.NONE VW.I ∨ o = apart cls VW.I)) ∨
  (c = ch!"ว" ∧ o = joined SC.RA VW.UE) ∨
  (c = ch!"น" ∧ o = apart .LOWS VW.UE) ∨
  (c ∈ u!"คพ" ∧ (∃ d f, FinalAt ct w t (i + 2) [] d f) ∧ o = joined SC.RA VW.UE) ∨
  (c ∉ u!"กตทปศสวนคพ" ∧ ∃ v, (v = VW.I ∨ v = VW.UE) ∧
    ((c ≠ ch!"ห" ∧ o = joined SC.RA v) ∨ o = apart .LOWS v))

/-- "ฤ" stands at `i + 1`, and it is not the long "ฤๅ". -/
def RuAt (i : Nat) : Prop := At w t (i + 1) ch!"ฤ" ∧ ¬ At w t (i + 2) ch!"ๅ" ∧ ¬ At w t (i + 2) ch!"า"

/-- `o` is an onset at `i` (`l`: the consonant at `i` has been a final already). -/
def OnsetAt (i : Nat) (l : Bool) (o : Onset) : Prop :=
  ∃ c snd cls, w[i]? = some c ∧ Letter ct c snd cls ∧
    (o = ⟨i + 1, none, snd, cls, SC.NONE, none⟩ ∨
     (∃ d snd2 cls2, At w t (i + 1) d ∧ Letter ct d snd2 cls2 ∧ ¬ (d = ch!"ร" ∧ At w t (i + 2) ch!"ร") ∧
       TwoLetters i l c snd cls d snd2 cls2 o) ∨
     (RuAt w t i ∧ WithRu ct w t i c snd cls o))

/-- Whole syllables (or pairs of syllables) without a written vowel. -/
def WholeAt (i : Nat) (o : Onset) (r : Rime) : Prop :=
  ∃ c snd cls, w[i]? = some c ∧ Letter ct c snd cls ∧
    let plain k v : Prop := o = ⟨k, none, snd, cls, SC.NONE, some v⟩ ∧ r = ⟨k, false, v, .NONE, .SAMAN⟩
    let ra k v : Prop := o = ⟨k, some (openSyl snd cls VW.AUU), .RA, .LOWS, SC.NONE, some v⟩ ∧
      r = ⟨k, false, v, .NONE, .SAMAN⟩
    -- "a" after a consonant before the next syllable
    ((StartAt ct w t (i + 1) ∧ plain (i + 1) VW.A) ∨
     -- "บอ" in บดี, บดินทร์
     (c = ch!"บ" ∧ At w t (i + 1) ch!"ด" ∧ ct.isCons ch!"ด" = true ∧
       (At w t (i + 2) ch!"ิ" ∨ At w t (i + 2) ch!"ี") ∧ plain (i + 1) VW.AUU) ∨
     -- "-อ ระ" in จรลี, มรณะ, บริ-, จระ-
     (At w t (i + 1) ch!"ร" ∧ ct.isCons ch!"ร" = true ∧ ¬ At w t (i + 2) ch!"ร" ∧
       ((StartAt ct w t (i + 2) ∧ c ∈ u!"กคจทธนบปภมวสหอ" ∧ ra (i + 2) VW.A) ∨
        (At w t (i + 2) ch!"ิ" ∧ c = ch!"บ" ∧ ra (i + 3) VW.I) ∨
        (At w t (i + 2) ch!"ะ" ∧ c = ch!"จ" ∧ ra (i + 3) VW.A))) ∨
     -- "- รึ" in พฤ-, คฤ- and others
     (RuAt w t i ∧ (c ∈ u!"คพ" ∧ (¬ ∃ d f, FinalAt ct w t (i + 2) [] d f) ∨ c ∉ u!"กตทปศสวนคพ") ∧
       o = ⟨i + 2, some (openSyl snd cls VW.A), .RA, .LOWS, SC.NONE, some VW.UE⟩ ∧
       r = ⟨i + 2, false, VW.UE, .NONE, .SAMAN⟩))

/-! ## Rimes after a consonant

`j` is the position after the onset. -/

/-- Open syllable ending at `j`, after a silenced letter if there is one. -/
def Open (j : Nat) (v : Vowel) (f : EndConsClass) (m : Tone) (r : Rime) : Prop :=
  ∃ k, Skip ct w t j k ∧ r = ⟨k, false, v, f, m⟩

/-- Syllable with a final at `j`. -/
def Shut (j : Nat) (excl : U16Str) (v : Vowel) (m : Tone) (r : Rime) : Prop :=
  ∃ k b f, Closed ct w t j excl k b f ∧ r = ⟨k, b, v, f, m⟩

/-- Syllable with a final at `j` in full. -/
def ShutX (j : Nat) (excl : U16Str) (v : Vowel) (m : Tone) (r : Rime) : Prop :=
  ∃ k b f, ClosedX ct w t j excl k b f ∧ r = ⟨k, b, v, f, m⟩

/-- ◌ัวะ, ◌ัว, ◌ั with a final. -/
def HanRime (j : Nat) (r : Rime) : Prop :=
  At w t j ch!"ั" ∧ ∃ m k, MarkAt ct w t (j + 1) m k ∧
    ((At w t k ch!"ว" ∧ At w t (k + 1) ch!"ะ" ∧ Open ct w t (k + 2) VW.UA .NONE m r) ∨
     (At w t k ch!"ว" ∧ ¬ At w t (k + 1) ch!"ะ" ∧ Open ct w t (k + 1) VW.UAA .NONE m r) ∨
     (¬ At w t k ch!"ว" ∧ m = .SAMAN ∧ ShutX ct w t k [] VW.A m r) ∨
     (¬ At w t k ch!"ว" ∧ m ≠ .SAMAN ∧ Shut ct w t k [] VW.A m r))

/-- The vowel signs above and below the consonant. -/
def signVowels : List (Nat × Vowel) :=
  [(ch!"ิ", VW.I), (ch!"ี", VW.II), (ch!"ึ", VW.UE), (ch!"ื", VW.UEE), (ch!"ุ", VW.U), (ch!"ู", VW.UU)]

/-- A final after a vowel sign. -/
def SignFinal (k : Nat) (v : Vowel) (m : Tone) (r : Rime) : Prop :=
  (∀ c, At w t k c → ct.isLdVowel c = false) ∧
  ((v = VW.UEE ∧ At w t k ch!"อ" ∧ Open ct w t (k + 1) v .NONE m r) ∨
   (v = VW.UEE ∧ ¬ At w t k ch!"อ" ∧ Shut ct w t k [] v m r) ∨
   (v ≠ VW.UEE ∧ (v = VW.UE ∨ m ≠ .SAMAN) ∧
     Shut ct w t k (if v = VW.I ∨ v = VW.II then u!"ย" else []) v m r) ∨
   (v ≠ VW.UEE ∧ v ≠ VW.UE ∧ m = .SAMAN ∧
     ShutX ct w t k (if v = VW.I ∨ v = VW.II then u!"ย" else []) v m r))

/-- ◌ิ ◌ี ◌ึ ◌ือ ◌ุ ◌ู, open or with a final. (◌ื without อ is closed, except before a new syllable.) -/
def SignRime (j : Nat) (r : Rime) : Prop :=
  ∃ c v m k, At w t j c ∧ (ct.isUpVowel c = true ∨ ct.isBlVowel c = true) ∧ (c, v) ∈ signVowels ∧
    MarkAt ct w t (j + 1) m k ∧
    ((v = VW.UEE ∧ (∃ c, At w t k c ∧ ct.isLdVowel c = false) ∧ SignFinal ct w t k v m r) ∨
     (¬ (v = VW.UEE ∧ ∃ c, At w t k c ∧ ct.isLdVowel c = false) ∧
       ((Silent ct w t k ∧ (r = ⟨k + 2, false, v, .NONE, m⟩ ∨ SignFinal ct w t (k + 2) v m r)) ∨
        (¬ Silent ct w t k ∧ Silent2 ct w t IU k ∧ r = ⟨k + 3, false, v, .NONE, m⟩) ∨
        (¬ Silent ct w t k ∧ ¬ Silent2 ct w t IU k ∧
          (r = ⟨k, false, v, .NONE, m⟩ ∨ SignFinal ct w t k v m r)))))

/-- ◌็อ with a final. -/
def ShortORime (j : Nat) (r : Rime) : Prop :=
  At w t j ch!"็" ∧ At w t (j + 1) ch!"อ" ∧ ∃ k, Skip ct w t (j + 2) k ∧ Shut ct w t k [] VW.AU .SAMAN r

/-- "ร" as the rime: final with long "o" (not after an onset r), and "รร", alone or with a final. -/
def RoRime (o : Onset) (k : Nat) (m : Tone) (r : Rime) : Prop :=
  At w t k ch!"ร" ∧
  ((o.sound ≠ .RA ∧ Open ct w t (k + 1) VW.AUU .KON m r) ∨
   ∃ k', (if o.sound = .RA then k' = k + 1 else Skip ct w t (k + 1) k') ∧ At w t k' ch!"ร" ∧
    (Open ct w t (k' + 1) VW.A .KON m r ∨ (¬ Silent ct w t (k' + 1) ∧ ShutX ct w t (k' + 1) [] VW.A m r)))

/-- The rest: ะ, า, ำ, ว, อ, ร after an optional tone mark, an unwritten "o", or a final after the vowel of ฤ. -/
def PlainRime (o : Onset) (l : Bool) (j : Nat) (r : Rime) : Prop :=
  ∃ m k, MarkAt ct w t j m k ∧
    ((At w t k ch!"ะ" ∧ Open ct w t (k + 1) VW.A .NONE m r) ∨
     (At w t k ch!"า" ∧ (Open ct w t (k + 1) VW.AA .NONE m r ∨
       ∃ k', Skip ct w t (k + 1) k' ∧ ShutX ct w t k' [] VW.AA m r)) ∨
     (At w t k ch!"ำ" ∧ Open ct w t (k + 1) VW.A .KOM m r) ∨
     (At w t k ch!"ว" ∧ Shut ct w t (k + 1) [] VW.UAA m r) ∨
     (At w t k ch!"อ" ∧ (Open ct w t (k + 1) VW.AUU .NONE m r ∨
       ∃ k', Skip ct w t (k + 1) k' ∧ Shut ct w t k' [] VW.AUU m r)) ∨
     RoRime ct w t o k m r ∨
     (o.inherent = none ∧ o.second ≠ SC.WA ∧ l = false ∧ Shut ct w t k u!"ยวอร" VW.O m r) ∨
     (∃ v c, o.inherent = some v ∧ At w t k c ∧ ct.isCons c = true ∧ c ∉ u!"วอร" ∧
       (r = ⟨k, false, v, .NONE, m⟩ ∨ ShutX ct w t k [] v m r)))

/-- A rime after the consonant onset `o`. -/
def ConsRime (o : Onset) (l : Bool) (r : Rime) : Prop :=
  HanRime ct w t o.stop r ∨ SignRime ct w t o.stop r ∨ ShortORime ct w t o.stop r ∨ PlainRime ct w t o l o.stop r

/-! ## Rimes after a leading vowel -/

/-- Not a pre-syllable before "อ". -/
def NotPreA (o : Onset) : Prop := o.pre = none ∨ o.sound ≠ .A

/-- เ◌ียะ, เ◌ีย and the like: a vowel sign, an optional mark, a letter `mid`, and ะ for the short vowel. -/
def MidRime (sign mid : Nat) (short long : Vowel) (j : Nat) (full : Bool) (r : Rime) : Prop :=
  At w t j sign ∧ ∃ m k, MarkAt ct w t (j + 1) m k ∧ At w t k mid ∧
    ((At w t (k + 1) ch!"ะ" ∧ Open ct w t (k + 2) short .NONE m r) ∨
     (¬ At w t (k + 1) ch!"ะ" ∧ (Open ct w t (k + 1) long .NONE m r ∨
       ∃ k', Skip ct w t (k + 1) k' ∧
        (if full then ShutX ct w t k' [] long m r else Shut ct w t k' [] long m r))))

/-- A rime after "เ" and the onset `o`. -/
def ERime (o : Onset) (r : Rime) : Prop :=
  let j := o.stop
  -- เ◌ at the end
  (t ≤ j ∧ NotPreA o ∧ r = ⟨j, false, VW.EE, .NONE, .SAMAN⟩) ∨
  -- เ◌ิ with a final
  (At w t j ch!"ิ" ∧ ∃ m k k', MarkAt ct w t (j + 1) m k ∧ Skip ct w t k k' ∧ Shut ct w t k' [] VW.OEE m r) ∨
  -- เ◌ีย(ะ), เ◌ือ(ะ)
  MidRime ct w t ch!"ี" ch!"ย" VW.IA VW.IAA j true r ∨
  MidRime ct w t ch!"ื" ch!"อ" VW.UEA VW.UEAA j false r ∨
  -- เ◌็ with a final
  (At w t j ch!"็" ∧ Shut ct w t (j + 1) [] VW.E .SAMAN r) ∨
  (j < t ∧ ∃ m k, MarkAt ct w t j m k ∧
    -- เ◌ with a tone mark at the end
    ((t ≤ k ∧ r = ⟨k, false, VW.EE, .NONE, m⟩) ∨
     -- เ◌ before a syllable with อ, เ◌อะ, เ◌อ
     (At w t k ch!"อ" ∧ ((NotPreA o ∧ Open ct w t k VW.EE .NONE m r) ∨
       (At w t (k + 1) ch!"ะ" ∧ Open ct w t (k + 2) VW.OE .NONE m r) ∨
       (¬ At w t (k + 1) ch!"ะ" ∧ Open ct w t (k + 1) VW.OEE .NONE m r))) ∨
     -- เ◌ะ
     (At w t k ch!"ะ" ∧ NotPreA o ∧ Open ct w t (k + 1) VW.E .NONE m r) ∨
     -- เ◌าะ, เ◌า
     (At w t k ch!"า" ∧ ((At w t (k + 1) ch!"ะ" ∧ Open ct w t (k + 2) VW.AU .NONE m r) ∨
       (¬ At w t (k + 1) ch!"ะ" ∧ Open ct w t (k + 1) VW.A .KOEW m r))) ∨
     -- เ◌ย
     (At w t k ch!"ย" ∧ EndOrStart ct w t (k + 1) ∧ Open ct w t (k + 1) VW.OEE .KOEY m r) ∨
     -- เ◌ followed by something else
     (∃ c, At w t k c ∧ c ∉ u!"อะา" ∧ ¬ (c = ch!"ย" ∧ EndOrStart ct w t (k + 1)) ∧
       ¬ (k = j ∧ c ∈ u!"ิีื็") ∧ NotPreA o ∧
       (Open ct w t k VW.EE .NONE m r ∨ ∃ k', Skip ct w t k k' ∧ ShutX ct w t k' [] VW.EE m r))))

/-- A rime after "แ". -/
def AeRime (k : Nat) (m : Tone) (r : Rime) : Prop :=
  (At w t k ch!"ะ" ∧ Open ct w t (k + 1) VW.AE .NONE m r) ∨
  (At w t k ch!"็" ∧ Shut ct w t (k + 1) [] VW.AE m r) ∨
  (¬ At w t k ch!"ะ" ∧ ¬ At w t k ch!"็" ∧ (Open ct w t k VW.AEE .NONE m r ∨
    ∃ k', Skip ct w t k k' ∧ Shut ct w t k' [] VW.AEE m r))

/-- A rime after "โ". -/
def ORime (k : Nat) (m : Tone) (r : Rime) : Prop :=
  (At w t k ch!"ะ" ∧ ((Silent ct w t (k + 1) ∧ r = ⟨k + 3, false, VW.O, .NONE, m⟩) ∨
    (¬ Silent ct w t (k + 1) ∧ ∃ k', SkipIU ct w t (k + 1) k' ∧ r = ⟨k', false, VW.O, .NONE, m⟩))) ∨
  (¬ At w t k ch!"ะ" ∧
    ((Silent ct w t k ∧ (r = ⟨k + 2, false, VW.OO, .NONE, m⟩ ∨ ShutX ct w t (k + 2) [] VW.OO m r)) ∨
     (¬ Silent ct w t k ∧ Silent2 ct w t IU k ∧ r = ⟨k + 3, false, VW.OO, .NONE, m⟩) ∨
     (¬ Silent ct w t k ∧ ¬ Silent2 ct w t IU k ∧
       (r = ⟨k, false, VW.OO, .NONE, m⟩ ∨ ShutX ct w t k [] VW.OO m r))))

/-- A rime after "ไ" and "ใ"; "ไ" may be followed by a silent ย. -/
def AiRime (malai : Bool) (k : Nat) (m : Tone) (r : Rime) : Prop :=
  Open ct w t k VW.A .KOEY m r ∨
  (malai = true ∧ At w t k ch!"ย" ∧ EndOrStart ct w t (k + 1) ∧ r = ⟨k + 1, false, VW.A, .KOEY, m⟩)

/-- A rime after the leading vowel `v` (other than "เ") and an onset that ends at `j`. -/
def LeadRime (v : Nat) (j : Nat) (r : Rime) : Prop :=
  ∃ m k, MarkAt ct w t j m k ∧
    ((v = ch!"แ" ∧ AeRime ct w t k m r) ∨ (v = ch!"โ" ∧ ORime ct w t k m r) ∨
     (v = ch!"ไ" ∧ AiRime ct w t true k m r) ∨ (v = ch!"ใ" ∧ AiRime ct w t false k m r))

/-- "ฤ", "ฤๅ", "ฦ" as a syllable of its own at `i`. -/
def RuRime (i : Nat) (r : Rime) : Prop :=
  (t ≤ i + 1 ∧ r = ⟨i + 1, false, VW.UE, .NONE, .SAMAN⟩) ∨
  ((At w t (i + 1) ch!"ๅ" ∨ At w t (i + 1) ch!"า") ∧ r = ⟨i + 2, false, VW.UEE, .NONE, .SAMAN⟩) ∨
  (∃ d, At w t (i + 1) d ∧ ct.isCons d = true ∧
    (((d ∈ finalLetters .NONE ∨ (i + 2 < t ∧ ¬ StartAt ct w t (i + 2))) ∧
       r = ⟨i + 1, false, VW.UE, .NONE, .SAMAN⟩) ∨
     (¬ (d ∈ finalLetters .NONE ∨ (i + 2 < t ∧ ¬ StartAt ct w t (i + 2))) ∧
       ShutX ct w t (i + 1) [] (if d ∈ u!"ณทษ" then VW.I else VW.UE) .SAMAN r)))

/-! ## Syllables -/

/-- The syllable written from `i` on, as onset and rime (`l`: the consonant at `i` has been a final already). -/
def Spelled (i : Nat) (l : Bool) (o : Onset) (r : Rime) : Prop :=
  ∃ c, w[i]? = some c ∧
    ((ct.isCons c = true ∧
       ((OnsetAt ct w t i l o ∧ o.stop < t ∧ ConsRime ct w t o l r) ∨ (WholeAt ct w t i o r ∧ r.stop < t))) ∨
     (c = ch!"เ" ∧ i + 1 < t ∧ OnsetAt ct w t (i + 1) l o ∧ ERime ct w t o r) ∨
     (ct.isLdVowel c = true ∧ c ≠ ch!"เ" ∧ OnsetAt ct w t (i + 1) l o ∧ LeadRime ct w t c o.stop r) ∨
     ((c = ch!"ฤ" ∨ c = ch!"ฦ") ∧
       o = ⟨i + 1, none, if c = ch!"ฦ" then .LA else .RA, .LOWS, SC.NONE, none⟩ ∧ RuRime ct w t i r))

end

end Thpronun.Spec
