import Verif.Spec.Listed

/-! # Texts that begin alike -/

namespace Thpronun.Spec

/-- The texts are the same up to position `n`, and so are the word breaks before it. -/
structure SameStart (w w' : U16Str) (brk brk' : List Int) (n : Nat) : Prop where
  text : w.take n = w'.take n
  long : n ≤ w.length
  long' : n ≤ w'.length
  inside : ∀ b ∈ brk, b ≤ w.length
  inside' : ∀ b ∈ brk', b ≤ w'.length
  breaks : ∀ p b : Nat, p < b → b < n → ((b : Int) = nextBreak w brk p ↔ (b : Int) = nextBreak w' brk' p)

/-- No dictionary word is longer than `N` characters. -/
def Short (N : Nat) (look : List Nat → Option Str) : Prop := ∀ v data, look v = some data → v.length ≤ N

/-- The node after the syllables `s`, from the node `a` on. -/
def nodeAfter (a : Int) : List Syl → Int
  | [] => a
  | x :: s => nodeAfter x.endPos s

end Thpronun.Spec
