import Verif.Model.Cli

/-! # The streams and the exit status of the program: `thpronun/thpronun.cxx`

`Cli.main` gives the text of a run that ends normally. Here the same functions are written with what they send to standard
output and standard error before they end in whatever way. Every line is ended by `endl`, which flushes, so that all text
sent is written even if an exception then ends the program. (After undefined behaviour nothing can be said; the
properties make claims for normal ends and for exceptions only. Failures of the streams themselves are not modelled.) -/

namespace Thpronun

/-- An action: what it has written and how it ends. -/
structure Act (α : Type) where
  out : Str
  err : Str
  res : Res α

namespace Act

def bind {α β} (a : Act α) (f : α → Act β) : Act β :=
  match a.res with
  | .ok x => ⟨a.out ++ (f x).out, a.err ++ (f x).err, (f x).res⟩
  | .throw e => ⟨a.out, a.err, .throw e⟩
  | .ub => ⟨a.out, a.err, .ub⟩
  | .diverge => ⟨a.out, a.err, .diverge⟩

instance : Monad Act where
  pure x := ⟨[], [], .ok x⟩
  bind := bind

/-- `cout << …` -/
def put (s : Str) : Act Unit := ⟨s, [], .ok ()⟩
/-- `cerr << …` -/
def eput (s : Str) : Act Unit := ⟨[], s, .ok ()⟩
/-- A computation without output. -/
def lift {α} (r : Res α) : Act α := ⟨[], [], r⟩

end Act

namespace Cli
open Act

/-- The loop over the outputs, thpronun.cxx:28-30 -/
def outputsS (d : PronunDAG) : List OutKind → Act Unit
  | [] => pure ()
  | k :: ks => do
    let o ← lift (k.run d)
    put (o ++ b!"\n")
    outputsS d ks

/-- `DoParse`, thpronun.cxx:22-31 -/
def doParseS (parseWord : Str → Res PronunDAG) (outs : List OutKind) (word : Str) : Act Unit := do
  put (word ++ b!":" ++ b!"\n")
  let d ← lift (parseWord word)
  outputsS d outs

/-- The word loops, thpronun.cxx:285-298 -/
def wordsS (parseWord : Str → Res PronunDAG) (outs : List OutKind) : List Str → Act Unit
  | [] => pure ()
  | w :: ws => do
    doParseS parseWord outs w
    wordsS parseWord outs ws

/-- `Version`, thpronun.cxx:33-49 (`version`: the macro VERSION) -/
def versionText (prog version : Str) : Str :=
  prog ++ b!" " ++ version ++ b!"\n" ++ b!"\n" ++
  b!"Copyright (C) 2018 Theppitak Karoonboonyanan <theppitak@gmail.com>\n" ++
  b!"License GPLv3+: GNU GPL version 3 or later <http://gnu.org/licenses/gpl.html>.\n" ++
  b!"This is free software: you are free to change and redistribute it.\n" ++
  b!"There is NO WARRANTY, to the extent permitted by law.\n" ++ b!"\n" ++
  b!"Written by Theppitak Karoonboonyanan, under the sponsorship\n" ++ b!"of Metamedia Technology Co., Ltd.\n"

/-- `Usage`, thpronun.cxx:51-85 -/
def usageText (prog : Str) : Str :=
  b!"Usage: " ++ prog ++ b!" [OPTION] [WORD...]\n" ++ b!"\n" ++
  b!"Thai word pronunciation program.\n" ++ b!"\n" ++
  b!"It reads Thai words from command-line arguments, or from standard input\n" ++
  b!"if no argument is given, and generates all possible pronunciations\n" ++ b!"of the words.\n" ++ b!"\n" ++
  b!"Options:\n" ++ b!"\n" ++ b!"General:\n" ++
  b!"  -V, --version  Displays program version info\n" ++
  b!"  -h, --help     Displays help\n" ++
  b!"  -d<DICTPATH>   Use exception dict from <DICTPATH>\n" ++
  b!"  -n             Turns off word segmentation\n" ++ b!"\n" ++
  b!"Output structures:\n" ++
  b!"  -j             Turns on JSON output\n" ++
  b!"  -g             Turns on grouping in JSON output (implies '-j')\n" ++ b!"\n" ++
  b!"Output notations:\n" ++
  b!"  -r             Outputs Romanization\n" ++
  b!"  -t             Outputs Thai pronunciation\n" ++
  b!"  -p             Outputs Phonetic form\n" ++
  b!"  -w             Outputs Raw pronunciation code\n" ++
  b!"  -s             Outputs Soundex code\n" ++ b!"\n"

/-- What is written when the first pass ends the program, thpronun.cxx:197-249. The `char` 0 (argument `-`) is written as
a NUL byte. -/
def stopS (prog version : Str) : Stop → Act Unit
  | .version => put (versionText prog version)
  | .usage => put (usageText prog)
  | .unknownLong arg => eput (b!"Unknown option '" ++ arg ++ b!"'\n")
  | .missingDict => eput b!"Missing <dict-path> argument for -d\n"
  | .unknownShort c => do
    eput (b!"Unknown option '-" ++ [c] ++ b!"'\n")
    put (usageText prog)

/-- `LoadExceptDict` and the warning of `main`, thpronun.cxx:167-184, 280-283 (`dflt`: EXCEPT_DICT_PATH) -/
def loadS (dflt : Str) (p : Parser) (path : Option Str) (file : Option DictFile) : Act Parser := do
  let (p, ok) ← lift (p.loadExceptDict file)
  if ok then pure p
  else do
    match path with
    | some s => eput (b!"Failed to load exception dictionary '" ++ s ++ b!"'\n")
    | none => eput (b!"Failed to load exception dictionary " ++ dflt ++ b!"\n")
    eput b!"Warning: Working without exception dictionary\n"
    pure p

/-- `main`, thpronun.cxx:186-301, with its exit status (`prog` is `argv[0]`). The lines of the standard input are read
one by one in the program, in between the words; here they are known in advance. -/
noncomputable def mainS (prog version dflt : Str) (ct : CType) (brk : U16Str → List Int)
    (files : Option Str → Option DictFile) (args : List Str) (stdin : Str) : Act Nat := do
  match ← lift (plan args (getLines stdin)) with
  | .inl s => do
    stopS prog version s
    pure 1
  | .inr r => do
    let p ← loadS dflt (Parser.new brk r.isBreakWords) r.dictPath (files r.dictPath)
    wordsS (p.parseWord ct) r.outputs r.words
    pure 0

end Cli
end Thpronun
