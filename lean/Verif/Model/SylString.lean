import Verif.Model.Syl

/-! # Syllable strings: `sylstring/sylstring.{h,cxx,inl}` and
`MakeSylStrings` (`parser/parser.cxx`) -/

namespace Thpronun

/-- sylstring.h:13-51 (`std::list<Syl>`); `+=` is list append (sylstring.inl:37-56). -/
abbrev SylString := List Syl

namespace SylString

/-- The `find`/`substr` splitting loop shared by sylstring.cxx:15-21 and parser.cxx:1681-1690:
pieces between occurrences of `sep`, the part after the last one included. -/
def splitOn (sep : Byte) : Str → List Str
  | [] => [[]]
  | c :: cs =>
    if c = sep then [] :: splitOn sep cs
    else
      match splitOn sep cs with
      | [] => [[c]]
      | p :: ps => (c :: p) :: ps

/-- Build one object per piece, left to right. -/
def mapRes {α β} (f : α → Res β) : List α → Res (List β)
  | [] => .ok []
  | a :: as => do
    let b ← f a
    let bs ← mapRes f as
    pure (b :: bs)

/-- `SylString (const string& desc)`, sylstring.cxx:13-22 -/
def ofDesc (desc : Str) : Res SylString :=
  mapRes (fun d => sylOfDesc d) (splitOn ch!"," desc)

/-- `MakeSylStrings`, parser.cxx:1676-1693 -/
def makeSylStrings (desc : Str) : Res (List SylString) :=
  mapRes ofDesc (splitOn ch!";" desc)

/-- sylstring.cxx:24-34 (`operator==`) -/
def eq : SylString → SylString → Bool
  | [], [] => true
  | a :: as, b :: bs => if Syl.ne a b then false else eq as bs
  | _, _ => false

instance : CppEq SylString := ⟨SylString.eq⟩

/-- sylstring.cxx:36-47 (`operator<`) -/
def lt : SylString → SylString → Bool
  | a :: as, b :: bs =>
    if Syl.lt a b then true else if Syl.gt a b then false else lt as bs
  | _, [] => false
  | [], _ :: _ => true

/-- sylstring.cxx:49-60 (`operator>`) -/
def gt : SylString → SylString → Bool
  | a :: as, b :: bs =>
    if Syl.gt a b then true else if Syl.lt a b then false else gt as bs
  | [], _ => false
  | _ :: _, [] => true

/-- sylstring.inl:95-99 -/
def le (a b : SylString) : Bool := !gt a b
/-- sylstring.inl:101-105 -/
def ge (a b : SylString) : Bool := !lt a b
/-- sylstring.inl:89-93 -/
def ne (a b : SylString) : Bool := !eq a b

/-- sylstring.inl:83-87 -/
def endPos (s : SylString) : Int :=
  match s.getLast? with
  | none => 0
  | some x => x.endPos

/-- One end position under `shiftEndPos`, sylstring.cxx:66-74 -/
def shiftPos (offset : Int) (cur : Int) : Int :=
  if cur < 0 then cur - offset * 101 else cur + offset

/-- sylstring.cxx:62-76 -/
def shiftEndPos (s : SylString) (offset : Int) : SylString :=
  s.map fun x => x.setEndPos (shiftPos offset x.endPos)

end SylString

end Thpronun
