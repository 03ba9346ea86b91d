import Verif.Spec.Reading
import Verif.Model.Dict

/-! # Dictionaries of any origin

What an opened dictionary file stores for a word, whoever wrote it. -/

namespace Thpronun.Spec

/-- The word is in the trie, with this number. -/
def Numbered (d : Dict) (v : U16Str) (i : Int) : Prop := ∃ t, d.mTrie = some t ∧ t.get v = some i

/-- What is stored for a word: the text at the place in the data that its number gives, up to the next NUL; or nothing, if
the number is -1. -/
def Stored (d : Dict) (v : U16Str) (s : Str) : Prop :=
  ∃ i, Numbered d v i ∧ ((i = -1 ∧ s = []) ∨ (i ≠ -1 ∧
    ∃ bank pre post, d.mData = some bank ∧ bank = pre ++ s ++ 0 :: post ∧ (pre.length : Int) = i ∧ 0 ∉ s))

/-- A word whose number leads out of the data, or to a text without end. -/
def Astray (d : Dict) (v : U16Str) : Prop := (∃ i, Numbered d v i) ∧ ∀ s, ¬ Stored d v s

/-- Such a word stands at `p`, ending with the token or before a new syllable. -/
def MeetsAstray (ct : CType) (w : U16Str) (brk : List Int) (d : Dict) (p : Nat) : Prop :=
  ∃ t q, TokenTo ct w brk p t ∧ p < q ∧ q ≤ t ∧ (q = t ∨ StartAt ct w w.length q) ∧ Astray d (piece w p q)

end Thpronun.Spec
