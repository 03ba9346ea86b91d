import Verif.Model.GenDict
import Verif.Model.Utf

/-! # Dictionary contents -/

namespace Thpronun.Spec

/-- A dictionary entry: word (code points) and data (bytes). -/
structure DEntry where
  word : List Nat
  data : Str
  deriving DecidableEq, Repr

/-- An entry that can be written on a line of the source file: Thai word, data without NUL and newline,
at most 254 bytes without the newline. -/
def GoodEntry (e : DEntry) : Prop :=
  (∀ c ∈ e.word, 0x0e01 ≤ c ∧ c ≤ 0x0e5b) ∧ (∀ b ∈ e.data, b ≠ 0 ∧ b ≠ 10) ∧
    3 * e.word.length + 1 + e.data.length ≤ 254

instance (e) : Decidable (GoodEntry e) := by unfold GoodEntry; infer_instance

/-- The line of the source file: word in UTF-8, TAB, data, newline. -/
def entryLine (e : DEntry) : Str := e.word.flatMap utf8EncodeOne ++ [9] ++ e.data ++ [10]

/-- The data of the last entry for a word. -/
def lastData (es : List DEntry) (w : List Nat) : Option Str :=
  (es.reverse.find? fun e => decide (e.word = w)).map DEntry.data

/-- Successive calls of `findNext` from `m` on report exactly the given (end position, data) pairs, and
then return false for ever. -/
inductive Reports : Match → List (Nat × Str) → Prop
  | stop (m) (h : (m.findNext).2 = false) (h' : (m.findNext).1.findNext = ((m.findNext).1, false)) :
      Reports m []
  | found (m s l) (h : (m.findNext).2 = true) (hd : (m.findNext).1.getData = .ok s)
      (r : Reports (m.findNext).1 l) : Reports m (((m.findNext).1.getCurPos, s) :: l)

/-- The words that are a beginning of the text from a position on, by increasing length. -/
def prefixMatches (look : List Nat → Option Str) (text : List Nat) (pos : Nat) : List (Nat × Str) :=
  (List.range' 1 (text.length - pos)).filterMap fun n =>
    (look ((text.drop pos).take n)).map fun s => (pos + n, s)

/-- The entries that `ReadInput` returns until it fails for the first time. -/
inductive Run : Str → List DEntry → Prop
  | stop (f rest) (h : Gen.readInput f = .ok (none, rest)) : Run f []
  | line (f rest w d es) (h : Gen.readInput f = .ok (some (w, d), rest)) (r : Run rest es) :
      Run f (⟨w.takeWhile (· ≠ 0), d⟩ :: es)

end Thpronun.Spec
