import Verif.Model.Parser

/-! # The parser with 32-bit `int`

`Model.Parser` computes with unbounded integers. Here the places where the C++ code multiplies positions or adds to
numbers from a file are repeated with 32-bit `int` arithmetic, overflow being undefined behaviour: the pre-syllable node of
`AddSyl` and `SylString::shiftEndPos`. Other positions are at most a few units beyond the text, and are left unbounded. -/

namespace Thpronun

/-- A value of a 32-bit `int` expression. -/
def int32 (x : Int) : Res Int := if -2147483648 ≤ x ∧ x < 2147483648 then .ok x else .ub

/-- `-(curPos * 100 + pos)`, parser.cxx:247 -/
def preNode32 (cur pos : Nat) : Res Int := do
  let a ← int32 ((cur : Int) * 100)
  let b ← int32 (a + pos)
  int32 (-b)

/-- `AddSyl`, parser.cxx:240-268 -/
def addSyl32 (prev : PState) (p : PartialSyl) (pos : Nat) : Res PronunDAG :=
  match p.pre with
  | some pre => do
    let next ← preNode32 prev.pos pos
    let dag := (prev.dag.addEdge prev.pos next (pre.setEndPos next)).1
    pure (dag.addEdge next pos (p.toSyl pos)).1
  | none => pure (prev.dag.addEdge prev.pos pos (p.toSyl pos)).1

/-- The calls of `AddState`, parser.cxx:274-280 -/
def addEmits32 (pool : StatePool) (prev : PState) : List Emit → Res StatePool
  | [] => pure pool
  | e :: es => do
    let d ← addSyl32 prev e.p e.pos
    addEmits32 (pool.add ⟨e.pos, prev.stop, d, e.linked⟩) prev es

/-- One end position under `shiftEndPos`, sylstring.cxx:66-74 -/
def shiftPos32 (offset : Int) (cur : Int) : Res Int :=
  if cur < 0 then do
    let m ← int32 (offset * 101)
    int32 (cur - m)
  else int32 (cur + offset)

/-- `SylString::shiftEndPos`, sylstring.cxx:62-76 -/
def shiftEndPos32 (s : SylString) (offset : Int) : Res SylString :=
  SylString.mapRes (fun x => do pure (x.setEndPos (← shiftPos32 offset x.endPos))) s

/-- Body of `FindExceptions` for one accepted match, parser.cxx:1715-1719 -/
def exceptDag32 (pos : Nat) (d : PronunDAG) : List SylString → Res PronunDAG
  | [] => pure d
  | x :: xs => do
    let y ← shiftEndPos32 x pos
    exceptDag32 pos (PronunDAG.addSylString d pos y) xs

section
variable (ct : CType) (w : U16Str)

/-- `FindExceptions`, parser.cxx:1695-1725 -/
def exceptLoop32 (s : PState) : Nat → Match → Res (List PState)
  | 0, _ => .diverge
  | fuel + 1, m =>
    match m.findNext with
    | (_, false) => .ok []
    | (m, true) =>
      if m.getCurPos > s.stop then exceptLoop32 s fuel m
      else do
        let skip ←
          if m.getCurPos < s.stop then do pure (!isSylStart ct (← strAt w m.getCurPos)) else pure false
        if skip then exceptLoop32 s fuel m
        else do
          let strs ← SylString.makeSylStrings (← m.getData)
          let d ← exceptDag32 s.pos s.dag strs
          let rest ← exceptLoop32 s fuel m
          pure (⟨m.getCurPos, s.stop, d, false⟩ :: rest)

/-- parser.cxx:1695-1725 -/
def findExceptions32 (s : PState) (dict : Dict) : Res (List PState) :=
  exceptLoop32 ct w s (w.length + 1) (Match.new w s.pos dict)

/-- The syllable parsers tried on the character at `s.pos`, parser.cxx:1897-1919 -/
def parseChar32 (s : PState) (pool : StatePool) : Res StatePool := do
  let c ← strAt w s.pos
  if ct.isCons c then do addEmits32 pool s (← parseThCons ct w s.pos s.stop s.linked)
  else if UTH.SARA_E = c then do addEmits32 pool s (← parseSaraE ct w s.pos s.stop s.linked)
  else if ct.isLdVowel c then do addEmits32 pool s (← parseOtherLV ct w s.pos s.stop s.linked)
  else if UTH.RU = c ∨ UTH.LU = c then do addEmits32 pool s (← parseRuLu ct w s.pos s.stop)
  else if c = ch!"." then do
    let d ← stretchDot s.pos (s.dag.inDegree s.pos + 1) s.dag
    pure (pool.add { s with dag := d, pos := s.pos + 1 })
  else pure pool

/-- One turn of the loop, parser.cxx:1869-1921 -/
def parseStep32 (dict : Option Dict) (brk : List Int) (st : StatePool × PronunDAG) :
    Res ((StatePool × PronunDAG) ⊕ PronunDAG) :=
  match st with
  | ([], acc) => .ok (.inr acc)
  | (s :: pool, acc) =>
    if s.pos ≥ w.length then .ok (.inl (pool, acc.unionDAG s.dag))
    else if s.pos ≥ s.stop then do
      let s ← refresh ct w brk s
      pure (.inl (StatePool.add pool s, acc))
    else do
      let ex ←
        match dict with
        | some d => findExceptions32 ct w s d
        | none => pure []
      if ex.length > 0 then pure (.inl (ex.foldl StatePool.add pool, acc))
      else do
        match ← findAbbr ct w s with
        | some s' => pure (.inl (StatePool.add pool s', acc))
        | none => do pure (.inl (← parseChar32 ct w s pool, acc))

/-- `ParseU16`, parser.cxx:1845-1923 -/
noncomputable def parseU16w32 (dict : Option Dict) (brk : List Int) : Res PronunDAG := do
  let pool ← parseInit ct w brk
  whileLoop (parseStep32 ct w dict brk) (pool, DAG.empty)

end

/-- `Parser::parseWord`, parser.cxx:1975-1986 -/
noncomputable def Parser.parseWord32 (ct : CType) (p : Parser) (word : Str) : Res PronunDAG := do
  let u16word ← fromBytes word
  parseU16w32 ct u16word p.exceptDict (findBreaks u16word p.thBrk)

end Thpronun
