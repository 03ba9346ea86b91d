import Verif.Model.SylOut
import Verif.Model.PronDag

/-! # Output of syllable strings and DAGs: `output/output-*.cxx` -/

namespace Thpronun

/-- The virtual method `ISylOutput::output (const Syl&)`. -/
abbrev SylOutput := Syl → Res Str

/-! ## Delimited, output-delim.cxx -/

/-- Loop of output-delim.cxx:14-26 -/
def delimLoop (out : SylOutput) (delim : Byte) : Bool → SylString → Res Str
  | _, [] => .ok []
  | isBegin, s :: ss =>
    if ceq s Syl.blank then do
      pure (b!" " ++ (← delimLoop out delim true ss))
    else do
      let o ← out s
      let r ← delimLoop out delim false ss
      pure ((if isBegin then [] else [delim]) ++ o ++ r)

/-- output-delim.cxx:9-29 -/
def delimStr (out : SylOutput) (delim : Byte) (s : SylString) : Res Str :=
  delimLoop out delim true s

/-- `output (str) + '\n'` for each string: output-delim.cxx:34-40, output-roman.cxx:48-54 -/
def linesOf (f : SylString → Res Str) : List SylString → Res Str
  | [] => .ok []
  | s :: ss => do
    let o ← f s
    let r ← linesOf f ss
    pure (o ++ b!"\n" ++ r)

/-- output-delim.cxx:31-41 -/
def delimList (out : SylOutput) (delim : Byte) (l : List SylString) : Res Str :=
  linesOf (delimStr out delim) l

/-- output-delim.cxx:43-47 -/
def delimDag (out : SylOutput) (delim : Byte) (d : PronunDAG) : Res Str := do
  delimList out delim (← PronunDAG.sylStrings d 0)

/-! ## JSON, output-json.cxx -/

/-- `while (++i != end()) …`, output-json.cxx:16-18 and 32-34: each further element, preceded by
a comma. -/
def commaLoop {α} (f : α → Res Str) : List α → Res Str
  | [] => .ok []
  | a :: as => do
    let o ← f a
    let r ← commaLoop f as
    pure (b!"," ++ o ++ r)

/-- A quoted syllable, output-json.cxx:15, 17 -/
def jsonSyl (out : SylOutput) (s : Syl) : Res Str := do
  pure (b!"\"" ++ (← out s) ++ b!"\"")

/-- output-json.cxx:9-22. `*i` on an empty string dereferences `end()`: UB. -/
def jsonStr (out : SylOutput) : SylString → Res Str
  | [] => .ub
  | s :: ss => do
    let o ← jsonSyl out s
    let r ← commaLoop (jsonSyl out) ss
    pure (b!"[" ++ o ++ r ++ b!"]")

/-- output-json.cxx:24-38. `*i` on an empty list dereferences `end()`: UB. -/
def jsonList (out : SylOutput) : List SylString → Res Str
  | [] => .ub
  | s :: ss => do
    let o ← jsonStr out s
    let r ← commaLoop (jsonStr out) ss
    pure (b!"[" ++ o ++ r ++ b!"]")

/-- output-json.cxx:40-44 -/
def jsonDag (out : SylOutput) (d : PronunDAG) : Res Str := do
  jsonList out (← PronunDAG.sylStrings d 0)

/-! ## Grouped JSON, output-gjson.cxx -/

/-- A bracketed, comma separated list (the three nested loops of output-gjson.cxx:27-48). -/
def bracketList {α} (f : α → Res Str) : List α → Res Str
  | [] => .ok b!"[]"
  | a :: as => do
    let o ← f a
    let r ← commaLoop f as
    pure (b!"[" ++ o ++ r ++ b!"]")

/-- output-gjson.cxx:22-51 -/
def gjsonLatt (out : SylOutput) (l : PronunLatt) : Res Str :=
  bracketList (fun chain => bracketList (fun (frac : PronunFrac) =>
    bracketList (jsonStr out) frac.alts) chain) l

/-- output-gjson.cxx:16-20 -/
def gjsonDag (out : SylOutput) (d : PronunDAG) : Res Str := do
  let f ← PronunDAG.fracDAG d
  let l ← FracDAG.lattice f
  gjsonLatt out l

/-- output-gjson.cxx:10-14 -/
def gjsonList (out : SylOutput) (l : List SylString) : Res Str := gjsonDag out (PronunDAG.ofStrings l)

/-! ## Romanization, output-roman.cxx -/

/-- Loop of output-roman.cxx:21-40. `isBegin` is set after a blank and never reset. -/
def romanLoop (prev : Syl) : Bool → SylString → Res Str
  | _, [] => .ok []
  | isBegin, s :: ss =>
    if ceq s Syl.blank then do
      pure (b!" " ++ (← romanLoop s true ss))
    else do
      let o ← romanSyl s
      let r ← romanLoop s isBegin ss
      let hyphen := !isBegin && (decide (InitConsSound.A = s.iCons1)
        || (decide (EndConsClass.NONE = prev.eCons) && decide (InitConsSound.NGA = s.iCons1)))
      pure ((if hyphen then b!"-" else []) ++ o ++ r)

/-- `toupper` in the "C" locale. -/
def toUpperByte (b : Byte) : Byte := if 97 ≤ b ∧ b ≤ 122 then b - 32 else b

/-- `outStr[0] = toupper (outStr[0])`, output-roman.cxx:18-20. (On an empty string the terminating
NUL is overwritten by itself.) -/
def capitalize : Str → Str
  | [] => []
  | b :: bs => toUpperByte b :: bs

/-- output-roman.cxx:11-43. `*i` on an empty string dereferences `end()`: UB. -/
def romanStr (cap : Bool) : SylString → Res Str
  | [] => .ub
  | s :: ss => do
    let o ← romanSyl s
    let o := if cap then capitalize o else o
    let r ← romanLoop s false ss
    pure (o ++ r)

/-- output-roman.cxx:45-55 -/
def romanList (cap : Bool) (l : List SylString) : Res Str := linesOf (romanStr cap) l

/-- output-roman.cxx:57-61 -/
def romanDag (cap : Bool) (d : PronunDAG) : Res Str := do
  romanList cap (← PronunDAG.sylStrings d 0)

end Thpronun
