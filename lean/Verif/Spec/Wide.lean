import Verif.Spec.Count

/-! # How many letters a syllable takes -/

namespace Thpronun.Spec

/-- A Thai letter or sign (a period is none). -/
def isThai (ct : CType) (c : U16) : Bool := ct.isCons c || ct.isVowel c || ct.isTone c || decide (c ∈ u!"็์")

/-- The number of Thai letters and signs of a text. -/
def thaiIn (ct : CType) (s : U16Str) : Nat := s.countP (isThai ct)

/-- Every syllable takes at most `N` characters, from the node `n` on. -/
def Narrow (N : Nat) (n : Int) : List Syl → Prop
  | [] => True
  | s :: ss => begun s.endPos ≤ begun n + N ∧ Narrow N s.endPos ss

instance decNarrow (N : Nat) : (n : Int) → (s : List Syl) → Decidable (Narrow N n s)
  | _, [] => inferInstanceAs (Decidable True)
  | n, s :: ss =>
    have := decNarrow N s.endPos ss
    inferInstanceAs (Decidable (begun s.endPos ≤ begun n + N ∧ Narrow N s.endPos ss))

/-- All readings of the dictionary are such. -/
def NarrowLook (N : Nat) (look : List Nat → Option Str) : Prop :=
  ∀ v data strs, look v = some data → DataIs data strs → ∀ str ∈ strs, Narrow N 0 str

/-- เกรี้ยร์กจุ์, the spelling of one syllable with everything it can have: a leading vowel, a cluster, a vowel sign, a tone
mark, the letter of the vowel, a silenced letter, the final, and a silenced letter with a vowel sign. -/
def widest : U16Str := u!"เกรี้ยร์กจุ์"

/-- It `k` times. -/
def widestTimes (k : Nat) : U16Str := (List.replicate k widest).flatten

end Thpronun.Spec
