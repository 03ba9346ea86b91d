import Verif.Model.Streams

/-! # Reading a help text: which options it describes -/

namespace Thpronun.Spec

/-- The lines of a text. -/
def textLines : Str → List Str
  | [] => [[]]
  | b :: bs =>
    if b = 10 then [] :: textLines bs
    else match textLines bs with
      | [] => [[b]]
      | l :: ls => (b :: l) :: ls

/-- The entry of an option: a line that begins with two blanks and a hyphen, without them. -/
def helpEntry (line : Str) : Option Str := if b!"  -".isPrefixOf line then some (line.drop 3) else none

/-- The entries of a text, in order. -/
def helpEntries (text : Str) : List Str := (textLines text).filterMap helpEntry

/-- The lines between a title and the next empty line. -/
def helpSection (title text : Str) : List Str := (((textLines text).dropWhile (· ≠ title)).drop 1).takeWhile (· ≠ [])

/-- The entry describes the option letter `c`. -/
def EntryOf (c : Byte) (entry : Str) : Prop := entry.head? = some c

/-- The entry also gives a long name: `c, --name`, ended by a blank. -/
def longName (entry : Str) : Option Str :=
  if b!", --".isPrefixOf (entry.drop 1) then some ((entry.drop 5).takeWhile (· ≠ ch!" ")) else none

/-- The option takes an argument, written directly after the letter: `c<NAME>`. -/
def TakesArg (entry : Str) : Prop := (entry.drop 1).head? = some ch!"<"

instance (c : Byte) (e : Str) : Decidable (EntryOf c e) := inferInstanceAs (Decidable (_ = _))
instance (e : Str) : Decidable (TakesArg e) := inferInstanceAs (Decidable (_ = _))

end Thpronun.Spec
