import Verif.Spec.Grammar
import Verif.Spec.Parser
import Verif.Spec.Desc

/-! # Readings of a text by the spelling rules

The readings of `Spec.Parser` use functions of the parser for the single steps (character classes, letter names, the
syllable grammar). Here every step is given by the spelling rules and the format of the dictionary data alone. -/

namespace Thpronun.Spec

/-- The edges of a spelled syllable from `p` on: one, or two with a pre-syllable. -/
def spelledEdges (p : Nat) (o : Onset) (r : Rime) : List (Entry Syl) :=
  match o.pre with
  | some pre => [⟨p, spanPos p r.stop, { pre with endPos := spanPos p r.stop }⟩, ⟨spanPos p r.stop, r.stop, spoken o r⟩]
  | none => [⟨p, r.stop, spoken o r⟩]

/-- A literal piece of text. -/
def plainText (e : Int) (s : U16Str) : Syl :=
  ⟨.INVALID, SC.NONE, VW.INVALID, .NONE, .INVALID, s, e⟩

/-- Where the end position `e` of a dictionary reading lies in the text, for a word found at `p`. -/
def movedEnd (p : Nat) (e : Int) : Int := if e < 0 then e - 101 * (p : Int) else e + p

/-- The edges of a dictionary reading, begun at the node `n`, for a word found at `p`. -/
def wordEdges (p : Nat) (n : Int) : SylString → List (Entry Syl)
  | [] => []
  | s :: ss => ⟨n, movedEnd p s.endPos, { s with endPos := movedEnd p s.endPos }⟩ :: wordEdges p (movedEnd p s.endPos) ss

section
variable (ct : CType) (w : U16Str) (look : List Nat → Option Str) (brk : List Int)

/-- A Thai letter or sign, or a period, stands at `i`. -/
def TextAt (i : Nat) : Prop :=
  ∃ c, w[i]? = some c ∧ (ct.isCons c = true ∨ ct.isVowel c = true ∨ ct.isTone c = true ∨ c ∈ u!"็์.")

/-- A token from `p` to `t`: it is ended by a word break, by another character or by the end of the text. -/
def TokenTo (p t : Nat) : Prop :=
  p < t ∧ t ≤ w.length ∧ (∀ i, p ≤ i → i < t → TextAt ct w i) ∧ (t : Int) ≤ nextBreak w brk p ∧
  ((t : Int) = nextBreak w brk p ∨ (t < w.length ∧ ¬ TextAt ct w t))

/-- A run of other characters from `p` to `q`. -/
def OtherTo (p q : Nat) : Prop :=
  p < q ∧ q ≤ w.length ∧ (∀ i, p ≤ i → i < q → ¬ TextAt ct w i) ∧ (q = w.length ∨ TextAt ct w q)

/-- A dictionary word from `p` to `q`, ending with the token or before a new syllable. -/
def WordAt (p t q : Nat) (data : Str) : Prop :=
  p < q ∧ q ≤ w.length ∧ look (piece w p q) = some data ∧ q ≤ t ∧ (q = t ∨ StartAt ct w w.length q)

end

/-- The name of the letter `c` as a syllable ending at `q`: its sound and class as taught in school, the vowel of
ออ, the mid tone, or the rising tone for high consonants. -/
def IsLetterName (c : U16) (q : Int) (s : Syl) : Prop :=
  ∃ snd cls, c ∈ soundLetters snd ∧ c ∈ classLetters cls ∧
    s = ⟨snd, SC.NONE, VW.AUU, .NONE, if cls = .HIGH then .CHATTAWA else .SAMAN, [], q⟩

/-- The edges of an abbreviation of the consonants `cs` at `q`, up to `e`: their names in order, from letter to
letter, the last one up to `e`. -/
def IsNames (q : Nat) (e : Int) (cs : U16Str) (new : List (Entry Syl)) : Prop :=
  new.length = cs.length ∧ ∀ (i : Nat) c x, cs[i]? = some c → new[i]? = some x →
    x.key = ((q + i : Nat) : Int) ∧ x.target = (if i + 1 = cs.length then e else ((q + i + 1 : Nat) : Int)) ∧
    IsLetterName c x.target x.val

/-- The edges of the abbreviation from `p` to `q`: letter names, or the period alone. -/
def AbbrNames (w : U16Str) (p q : Nat) (new : List (Entry Syl)) : Prop :=
  (w[p]? = some ch!"." ∧ new = [⟨p, q, plainText q u!"."⟩]) ∨
  (w[p]? ≠ some ch!"." ∧ ∃ cs, (piece w p q = cs ++ u!"." ∨ (piece w p q = cs ∧ ch!"." ∉ cs)) ∧ IsNames p q cs new)

section
variable (ct : CType) (w : U16Str) (look : List Nat → Option Str) (brk : List Int)

/-- One step of a reading by the rules. -/
inductive Rule : Config → Config → Prop
  /-- Other characters are kept as they are. -/
  | other {p l es q} : OtherTo ct w p q → Rule ⟨p, l, es⟩ ⟨q, l, es ++ [⟨p, q, plainText q (piece w p q)⟩]⟩
  /-- The readings of a dictionary word. -/
  | word {p l es t q data strs str} : TokenTo ct w brk p t → WordAt ct w look p t q data →
      DataIs data strs → str ∈ strs → Rule ⟨p, l, es⟩ ⟨q, false, es ++ wordEdges p p str⟩
  /-- An abbreviation, where there is no dictionary word. -/
  | abbr {p l es t q new} : TokenTo ct w brk p t → (∀ q data, ¬ WordAt ct w look p t q data) → IsAbbr ct w p t q →
      AbbrNames w p q new → Rule ⟨p, l, es⟩ ⟨q, false, es ++ new⟩
  /-- A syllable, where there is neither. -/
  | syl {p l es t o r} : TokenTo ct w brk p t → (∀ q data, ¬ WordAt ct w look p t q data) →
      (∀ q, ¬ IsAbbr ct w p t q) → Spelled ct w t p l o r →
      Rule ⟨p, l, es⟩ ⟨r.stop, r.linked, es ++ spelledEdges p o r⟩
  /-- A period otherwise belongs to the syllable before it. -/
  | dot {p l es t} : TokenTo ct w brk p t → (∀ q data, ¬ WordAt ct w look p t q data) →
      (∀ q, ¬ IsAbbr ct w p t q) → w[p]? = some ch!"." → Rule ⟨p, l, es⟩ ⟨p + 1, l, es.map (stretch p)⟩

/-- A reading of the whole text by the rules. -/
def RuleReading (es : List (Entry Syl)) : Prop :=
  ∃ c, Relation.ReflTransGen (Rule ct w look brk) ⟨0, false, []⟩ c ∧ w.length ≤ c.pos ∧ c.edges = es

/-- A partial reading by the rules. -/
def RuleDeriv (c : Config) : Prop := Relation.ReflTransGen (Rule ct w look brk) ⟨0, false, []⟩ c

/-- A partial reading that reaches a leading vowel other than "เ" at the very end of the text. -/
def DeadEnd (c : Config) : Prop :=
  RuleDeriv ct w look brk c ∧ c.pos + 1 = w.length ∧
  (∃ x, w[c.pos]? = some x ∧ ct.isLdVowel x = true ∧ x ≠ ch!"เ") ∧
  ∃ t, TokenTo ct w brk c.pos t ∧ ∀ q data, ¬ WordAt ct w look c.pos t q data

/-- One of the words stands at `p`, ending with the token or before a new syllable. -/
def MeetsWord (words : List U16Str) (p : Nat) : Prop :=
  ∃ t q, TokenTo ct w brk p t ∧ p < q ∧ q ≤ t ∧ (q = t ∨ StartAt ct w w.length q) ∧ piece w p q ∈ words

end

end Thpronun.Spec
