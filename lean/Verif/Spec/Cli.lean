import Verif.Model.Cli

/-! # What the command line means, as described in the usage text (thpronun.cxx:50-84) -/

namespace Thpronun.Spec
open Cli

/-- An option: an argument that begins with a hyphen. -/
def isOpt (a : Str) : Bool := a.head? == some ch!"-"

/-- The letter of an option. -/
def optLetter (a : Str) : Option Byte := if isOpt a then a[1]? else none

/-- The argument is not an option, or a known one that does not end the program. -/
def GoodArg (a : Str) : Prop :=
  isOpt a = true → ∃ c ∈ b!"dnjgrstpw", optLetter a = some c ∧ (c = ch!"d" → 2 < a.length)

instance (a : Str) : Decidable (GoodArg a) :=
  decidable_of_iff (isOpt a = true → ∃ c ∈ b!"dnjgrstpw", optLetter a = some c ∧ (c = ch!"d" → 2 < a.length)) Iff.rfl

/-- The notations asked for, in order. -/
def notations (args : List Str) : List Byte := (args.filterMap optLetter).filter fun c => decide (c ∈ b!"rstpw")

/-- The output object for a notation. -/
def format (json group : Bool) (c : Byte) : OutKind :=
  match json, group, c with
  | true, true, c => .gjson c
  | true, false, c => .json c
  | false, _, 114 => .roman                      -- r
  | false, _, 112 => .delim ch!"p" ch!" "
  | false, _, 119 => .delim ch!"w" ch!","
  | false, _, c => .delim c ch!"-"

/-- An option with letter `c` is given. -/
def given (args : List Str) (c : Byte) : Bool := args.any fun a => optLetter a == some c

/-- What an argument list without bad arguments asks for; `stdin` are the lines of the standard input. -/
def meaning (args stdin : List Str) : Run where
  dictPath := ((args.filter fun a => optLetter a == some ch!"d").getLast?).map (List.drop 2)
  isBreakWords := !given args ch!"n"
  outputs := (if notations args = [] then b!"trp" else notations args).map
    (format (given args ch!"j" || given args ch!"g") (given args ch!"g"))
  words := if args.all isOpt then stdin else args.filter fun a => !isOpt a

/-- The notations behind the option letters, and the character that separates their syllables. -/
def notationTable : List (Byte × SylOutput × Byte) :=
  [(ch!"t", thaiSyl, ch!"-"), (ch!"r", romanSyl, ch!"-"), (ch!"p", phoneticSyl, ch!" "), (ch!"w", rawSyl, ch!","),
   (ch!"s", soundexSyl, ch!"-")]

end Thpronun.Spec
