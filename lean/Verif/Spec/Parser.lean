import Verif.Model.Parser
import Verif.Spec.Dict
import Verif.Spec.Syl
import Verif.Spec.Dag
import Mathlib.Logic.Relation

/-! # What the parser is supposed to compute

Readings of a word as derivations: sequences of steps, each reading a piece of the text from the
current position on. States, pools, merging and the order of the search do not occur. -/

namespace Thpronun.Spec

/-! ## Tokens -/

section
variable (ct : CType) (w : U16Str) (brk : List Int)

/-- There is a token character (Thai letter or sign, or period) at position `i`. -/
def Token (i : Nat) : Prop := ∃ c, w[i]? = some c ∧ isThaiTokenChar ct c = true

/-- The break position the word segmentation gives for the word at `p` (the end of the text if none). -/
def nextBreak (p : Nat) : Int := (brk.find? fun b => decide (b > (p : Int))).getD (w.length : Int)

/-- The token at `p` reaches up to `t`: token characters only, ended by a break or something else. -/
structure IsStop (p t : Nat) : Prop where
  lt : p < t
  le : t ≤ w.length
  bound : (t : Int) ≤ nextBreak w brk p
  tok : ∀ i, p ≤ i → i < t → Token ct w i
  fin : (t : Int) = nextBreak w brk p ∨ (t < w.length ∧ ¬ Token ct w t)

/-- A run of other characters from `p` to `q`. -/
structure IsGap (p q : Nat) : Prop where
  lt : p < q
  le : q ≤ w.length
  no : ∀ i, p ≤ i → i < q → ¬ Token ct w i
  fin : q = w.length ∨ Token ct w q

end

/-- The piece of the text from `p` to `q`. -/
def piece (w : U16Str) (p q : Nat) : U16Str := (w.drop p).take (q - p)

/-! ## Dictionary -/

/-- A dictionary behaves as the map `look` from words to data (`none`: no dictionary, no words). -/
def Holds : Option Dict → (List Nat → Option Str) → Prop
  | none, look => ∀ v, look v = none
  | some d, look => ∀ text pos, pos ≤ text.length →
      Reports (Match.new text pos d) (prefixMatches look text pos)

/-- The dictionary words at `p` that end inside the token, at its end or before the start of a syllable:
end positions and data. -/
def dictAt (ct : CType) (w : U16Str) (look : List Nat → Option Str) (p t : Nat) : List (Nat × Str) :=
  (prefixMatches look w p).filter fun m =>
    decide (m.1 ≤ t) && (decide (m.1 = t) || (w[m.1]?).any (isSylStart ct))

/-! ## Edges of a reading -/

/-- The edges of a syllable string begun at a node: each syllable leads to its end position. -/
def pathEdges (p : Int) : SylString → List (Entry Syl)
  | [] => []
  | s :: ss => ⟨p, s.endPos, s⟩ :: pathEdges s.endPos ss

/-- The edges of a grammar reading from `p` on: one, or two with a pre-syllable. -/
def sylEdges (p : Nat) (e : Emit) : List (Entry Syl) :=
  match e.p.pre with
  | some pre => [⟨p, spanPos p e.pos, pre.setEndPos (spanPos p e.pos)⟩,
      ⟨spanPos p e.pos, e.pos, e.p.toSyl e.pos⟩]
  | none => [⟨p, e.pos, e.p.toSyl e.pos⟩]

/-- The name of a consonant letter: with the vowel of "อ", in the tone of its class. -/
def letterName (snd : InitConsSound) (cls : InitConsClass) (endPos : Int) : Syl :=
  ⟨snd, SC.NONE, VW.AUU, .NONE, if cls = .HIGH then .CHATTAWA else .SAMAN, [], endPos⟩

/-- An abbreviation from `p` to `e` in a token up to `t`: at the beginning of the text or after a space or
a period; at most four consonants and a period, or a single consonant alone in its token. -/
structure IsAbbr (ct : CType) (w : U16Str) (p t e : Nat) : Prop where
  start : p = 0 ∨ w[p - 1]? = some ch!" " ∨ w[p - 1]? = some ch!"."
  le : e ≤ t
  shape : (∃ n ≤ 4, e = p + n + 1 ∧ (∀ i, p ≤ i → i < p + n → ∃ c, w[i]? = some c ∧ ct.isCons c = true) ∧
      w[p + n]? = some ch!".") ∨
    (e = p + 1 ∧ e = t ∧ ∃ c, w[p]? = some c ∧ ct.isCons c = true)

/-- The reading of an abbreviation: the letter names in order, the period belonging to the last one; a
period alone stays as it is. -/
def abbrEdges (w : U16Str) (p e : Nat) : Res (List (Entry Syl)) :=
  if w[p]? = some ch!"." then .ok [⟨p, e, Syl.lit e [ch!"."]⟩] else
  let n := if w[e - 1]? = some ch!"." then e - p - 1 else e - p
  SylString.mapRes (fun i => do
    let c ← strAt w (p + i)
    let q : Int := if i + 1 = n then e else ((p + i + 1 : Nat) : Int)
    pure (⟨((p + i : Nat) : Int), q, letterName (← initConsSound c) (← initConsClass c) q⟩ : Entry Syl))
    (List.range n)

/-- The grammar readings at `p` of a token up to `t` (`l`: after a linking syllable), by first character. -/
def grammar (ct : CType) (w : U16Str) (p t : Nat) (l : Bool) (c : Nat) : Res (List Emit) :=
  if ct.isCons c then parseThCons ct w p t l
  else if c = UTH.SARA_E then parseSaraE ct w p t l
  else if ct.isLdVowel c then parseOtherLV ct w p t l
  else if c = UTH.RU ∨ c = UTH.LU then parseRuLu ct w p t
  else .ok []

/-- A period after a syllable belongs to it: edges that end at `p` are stretched to `p + 1`. -/
def stretch (p : Nat) (e : Entry Syl) : Entry Syl :=
  if e.target = p then ⟨e.key, p + 1, e.val.setEndPos (p + 1)⟩ else e

/-! ## Derivations -/

/-- A partial reading: position reached, whether the last consonant is to be read again as an initial,
the edges so far. -/
structure Config where
  pos : Nat
  linked : Bool
  edges : List (Entry Syl)

section
variable (ct : CType) (w : U16Str) (look : List Nat → Option Str) (brk : List Int)

/-- No dictionary word and no abbreviation at `p`. -/
def Plain (p t : Nat) : Prop := dictAt ct w look p t = [] ∧ ¬ ∃ e, IsAbbr ct w p t e

/-- One step of a reading. -/
inductive Step : Config → Config → Prop
  | gap {p l es q} : IsGap ct w p q →
      Step ⟨p, l, es⟩ ⟨q, l, es ++ [⟨p, q, Syl.lit q (piece w p q)⟩]⟩
  | dict {p l es t q data strs str} : IsStop ct w brk p t → (q, data) ∈ dictAt ct w look p t →
      SylString.makeSylStrings data = .ok strs → str ∈ strs →
      Step ⟨p, l, es⟩ ⟨q, false, es ++ pathEdges p (SylString.shiftEndPos str p)⟩
  | abbr {p l es t q new} : IsStop ct w brk p t → dictAt ct w look p t = [] → IsAbbr ct w p t q →
      abbrEdges w p q = .ok new → Step ⟨p, l, es⟩ ⟨q, false, es ++ new⟩
  | syl {p l es t c ems e} : IsStop ct w brk p t → Plain ct w look p t → w[p]? = some c →
      grammar ct w p t l c = .ok ems → e ∈ ems →
      Step ⟨p, l, es⟩ ⟨e.pos, e.linked, es ++ sylEdges p e⟩
  | dot {p l es t} : IsStop ct w brk p t → Plain ct w look p t → w[p]? = some ch!"." →
      Step ⟨p, l, es⟩ ⟨p + 1, l, es.map (stretch p)⟩

/-- A derivation: the partial readings that can be reached from the beginning of the text. -/
def Deriv (c : Config) : Prop := Relation.ReflTransGen (Step ct w look brk) ⟨0, false, []⟩ c

/-- A reading of the whole text. -/
def Reading (es : List (Entry Syl)) : Prop :=
  ∃ c, Deriv ct w look brk c ∧ w.length ≤ c.pos ∧ c.edges = es

end

/-- A partial reading that gets stuck: it reaches a leading vowel other than SARA E at the very end of the text. -/
def Stuck (ct : CType) (w : U16Str) (look : List Nat → Option Str) (brk : List Int) (c : Config) : Prop :=
  Deriv ct w look brk c ∧ c.pos + 1 = w.length ∧ ∃ t x, IsStop ct w brk c.pos t ∧ Plain ct w look c.pos t ∧
    w[c.pos]? = some x ∧ ct.isLdVowel x = true ∧ x ≠ UTH.SARA_E

/-- Every entry of the dictionary can be read. -/
def Readable (look : List Nat → Option Str) : Prop :=
  ∀ v data, look v = some data → ∃ strs, SylString.makeSylStrings data = .ok strs

/-! ## Forward -/

/-- Twice the text position of a node; the node of a pre-syllable lies half a position after the beginning of
its span. -/
def place (n : Int) : Int := if n < 0 then 2 * ((-n) / 101) + 1 else 2 * n

/-- `s` leads strictly forward from node `p` to node `q`. -/
def Forward (p q : Int) : List Syl → Prop
  | [] => p = q
  | s :: ss => place p < place s.endPos ∧ Forward s.endPos q ss

/-- Every reading of every word: valid syllables that lead forward from the beginning of the word to its end. -/
def GoodLook (look : List Nat → Option Str) : Prop :=
  ∀ v data, look v = some data → ∃ strs, SylString.makeSylStrings data = .ok strs ∧
    ∀ str ∈ strs, (∀ s ∈ str, ValidSyl s) ∧ Forward 0 v.length str

end Thpronun.Spec
