import Verif.Model.Output
import Verif.Model.Parser

/-! # Command line: `thpronun/thpronun.cxx`

Arguments are C strings (byte lists without NUL). Reading past the terminating NUL is UB. -/

namespace Thpronun.Cli

/-- An `IOutput` object chosen by the options, thpronun.cxx:87-165 -/
inductive OutKind where
  | delim (notation_ : Byte) (delim : Byte)   -- `DelimOutput` over the notation of option letter
  | roman                                     -- `RomanOutput` (no capitalisation)
  | json (notation_ : Byte)
  | gjson (notation_ : Byte)
  deriving DecidableEq, Repr

/-- `Make…Output (isJson, isGroup)`, thpronun.cxx:87-165, for the option letter `c`
(`t`, `r`, `p`, `w`, `s`). -/
def makeOutput (c : Byte) (isJson isGroup : Bool) : OutKind :=
  if isJson then (if isGroup then .gjson c else .json c)
  else if c = ch!"r" then .roman
  else if c = ch!"p" then .delim c ch!" "
  else if c = ch!"w" then .delim c ch!","
  else .delim c ch!"-"

/-- The `ISylOutput` behind an option letter. -/
def sylOutputOf (c : Byte) : SylOutput :=
  if c = ch!"t" then thaiSyl
  else if c = ch!"r" then romanSyl
  else if c = ch!"p" then phoneticSyl
  else if c = ch!"w" then rawSyl
  else soundexSyl

/-- `strOut->output (pronDAG)` -/
def OutKind.run (k : OutKind) (d : PronunDAG) : Res Str :=
  match k with
  | .delim c s => delimDag (sylOutputOf c) s d
  | .roman => romanDag false d
  | .json c => jsonDag (sylOutputOf c) d
  | .gjson c => gjsonDag (sylOutputOf c) d

/-- What the options amount to, thpronun.cxx:189-194 -/
structure Opts where
  optCnt : Nat
  dictPath : Option Str
  isBreakWords : Bool
  isJson : Bool
  isGroup : Bool
  deriving DecidableEq, Repr

def Opts.init : Opts := ⟨0, none, true, false, false⟩

/-- Ways in which the first pass ends the program (exit status 1 in each case). -/
inductive Stop where
  | version | usage | unknownLong (arg : Str) | missingDict | unknownShort (c : Byte)
  deriving DecidableEq, Repr

/-- `argv[k] + 2` as a C string: beyond the terminator it is UB. -/
def skip2 (a : Str) : Res Str := if 2 ≤ a.length then .ok (a.drop 2) else .ub

/-- First pass, thpronun.cxx:197-249. `first` is `argv[1]` (compared with "help" at line 204
whatever the current argument is). -/
def firstPass (first : Str) : List Str → Opts → Res (Stop ⊕ Opts)
  | [], o => .ok (.inr o)
  | a :: as, o =>
    match a with
    | 45 :: r =>
      let o := { o with optCnt := o.optCnt + 1 }
      match r with
      | [] => .ok (.inl (.unknownShort 0))
      | c :: r' =>
        if c = ch!"-" then
          if r' = b!"version" then .ok (.inl .version)
          else do
            let h ← skip2 first
            if h = b!"help" then pure (.inl .usage) else pure (.inl (.unknownLong a))
        else if c = ch!"V" then .ok (.inl .version)
        else if c = ch!"h" then .ok (.inl .usage)
        else if c = ch!"d" then
          if r' = [] then .ok (.inl .missingDict)
          else firstPass first as { o with dictPath := some r' }
        else if c = ch!"n" then firstPass first as { o with isBreakWords := false }
        else if c = ch!"j" then firstPass first as { o with isJson := true }
        else if c = ch!"g" then firstPass first as { o with isJson := true, isGroup := true }
        else if c = ch!"r" ∨ c = ch!"s" ∨ c = ch!"t" ∨ c = ch!"p" ∨ c = ch!"w" then
          firstPass first as o
        else .ok (.inl (.unknownShort c))
    | _ => firstPass first as o

/-- Second pass, thpronun.cxx:251-273 -/
def secondPass (isJson isGroup : Bool) : List Str → List OutKind
  | [] => []
  | a :: as =>
    match a with
    | 45 :: c :: _ =>
      if c = ch!"r" ∨ c = ch!"s" ∨ c = ch!"t" ∨ c = ch!"p" ∨ c = ch!"w" then
        makeOutput c isJson isGroup :: secondPass isJson isGroup as
      else secondPass isJson isGroup as
    | _ => secondPass isJson isGroup as

/-- thpronun.cxx:274-278 -/
def outputsOf (isJson isGroup : Bool) (args : List Str) : List OutKind :=
  match secondPass isJson isGroup args with
  | [] => [makeOutput ch!"t" isJson isGroup, makeOutput ch!"r" isJson isGroup,
           makeOutput ch!"p" isJson isGroup]
  | l => l

/-- An argument taken as a word, thpronun.cxx:294. -/
def isWordArg (a : Str) : Bool :=
  match a with
  | 45 :: _ => false
  | _ => true

/-- What `main` does after the option passes, thpronun.cxx:280-298. -/
structure Run where
  dictPath : Option Str
  isBreakWords : Bool
  outputs : List OutKind
  words : List Str
  deriving DecidableEq, Repr

/-- `main` (thpronun.cxx:186-301) up to the processing of words; `args` is `argv[1..argc-1]`,
`stdin` the lines that `getline` would deliver. -/
def plan (args : List Str) (stdin : List Str) : Res (Stop ⊕ Run) := do
  match ← firstPass (args.headD []) args Opts.init with
  | .inl s => pure (.inl s)
  | .inr o =>
    let words := if 1 = (args.length + 1) - o.optCnt then stdin else args.filter isWordArg
    pure (.inr ⟨o.dictPath, o.isBreakWords, outputsOf o.isJson o.isGroup args, words⟩)

/-- `getline` on the whole input: pieces ended by a newline, plus a non-empty unended last one. -/
def getLines : Str → List Str
  | [] => []
  | b :: bs =>
    if b = 10 then [] :: getLines bs
    else
      match bs with
      | [] => [[b]]
      | _ :: _ =>
        match getLines bs with
        | [] => [[b]]
        | l :: ls => (b :: l) :: ls

/-- The loop over the outputs, thpronun.cxx:28-30 -/
def outputsLoop (d : PronunDAG) : List OutKind → Res Str
  | [] => .ok []
  | k :: ks => do
    let o ← k.run d
    let r ← outputsLoop d ks
    pure (o ++ b!"\n" ++ r)

/-- `DoParse`, thpronun.cxx:22-31: the text written to standard output. -/
def doParse (parseWord : Str → Res PronunDAG) (outs : List OutKind) (word : Str) : Res Str := do
  let d ← parseWord word
  let o ← outputsLoop d outs
  pure (word ++ b!":" ++ b!"\n" ++ o)

/-- The word loops, thpronun.cxx:285-298 -/
def wordsLoop (parseWord : Str → Res PronunDAG) (outs : List OutKind) : List Str → Res Str
  | [] => .ok []
  | w :: ws => do
    let o ← doParse parseWord outs w
    let r ← wordsLoop parseWord outs ws
    pure (o ++ r)

/-- `main`, thpronun.cxx:186-301: how the program ends, with the text written to standard output by the word loops.
`files` gives the dictionary file behind a path (`none`: the default path EXCEPT_DICT_PATH), `brk` is the word
breaker. `mainS` in Model/Streams adds what is written to the streams before the program ends in any way. -/
noncomputable def main (ct : CType) (brk : U16Str → List Int) (files : Option Str → Option DictFile)
    (args : List Str) (stdin : Str) : Res (Stop ⊕ Str) := do
  match ← plan args (getLines stdin) with
  | .inl s => pure (.inl s)
  | .inr r => do
    let (p, _) ← (Parser.new brk r.isBreakWords).loadExceptDict (files r.dictPath)
    let o ← wordsLoop (p.parseWord ct) r.outputs r.words
    pure (.inr o)

end Thpronun.Cli
