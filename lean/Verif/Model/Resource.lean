import Verif.Model.Dict

/-! # Ownership of memory and files: `dict/dict.cxx`, `dict/dict.inl`, `parser/parser.cxx`

`Model/Dict` looks at the contents behind the pointers; here a pointer is a handle, and the heap knows which handles are
live. -/

namespace Thpronun

/-- The live handles (tries, arrays, open files, parsers' dictionaries) and the next new one. -/
structure Heap where
  live : List Nat
  next : Nat

namespace Heap

/-- The heap at the start. -/
def empty : Heap := ⟨[], 0⟩

/-- `new`, `trie_fread` or `fopen`: a new handle. -/
def alloc (h : Heap) : Nat × Heap := (h.next, ⟨h.next :: h.live, h.next + 1⟩)

/-- `delete[]`, `trie_free`, `fclose`: undefined for a handle that is not live. -/
def free (h : Heap) (x : Nat) : Res Heap := if x ∈ h.live then .ok ⟨h.live.erase x, h.next⟩ else .ub

end Heap

/-- dict.h:12-27, as pointers. -/
structure DictPtr where
  mTrie : Option Nat
  mData : Option Nat

namespace DictPtr

/-- dict.inl:9-12 -/
def null : DictPtr := ⟨none, none⟩

/-- `if (p) { free (p); … }`, dict.cxx:61-68 -/
def freeOpt (h : Heap) : Option Nat → Res Heap
  | none => .ok h
  | some x => h.free x

/-- `Dict::close`, dict.cxx:58-69; also the destructor, dict.inl:21-25 -/
def close (h : Heap) (d : DictPtr) : Res (Heap × DictPtr) := do
  let h ← freeOpt h d.mTrie
  let h ← freeOpt h d.mData
  pure (h, null)

/-- `ReadDataBank`, dict.cxx:26-40: how the reading ends is that of `Dict.readDataBank`; the array is there while
reading. `none`: an exception. -/
def readDataBank (h : Heap) (input : Str) : Res (Heap × Option (Option Nat)) :=
  match Dict.readInt32 input with
  | none => .ok (h, some none)
  | some (bankSize, r) =>
    if bankSize < 0 then .ok (h, none)
    else
      let (x, h) := h.alloc
      if bankSize.toNat = 0 ∨ r.length < bankSize.toNat then do
        let h ← h.free x
        pure (h, some none)
      else .ok (h, some (some x))

/-- `trie_fread`: a new trie, or a null pointer. -/
def trieRead (h : Heap) : Option Trie → Option Nat × Heap
  | none => (none, h)
  | some _ => (some h.alloc.1, h.alloc.2)

/-- `Dict::open`, dict.cxx:42-56. The result is `none` if an exception leaves the function; then the members set so far
keep their values and the file is not closed. -/
def open_ (h : Heap) (d : DictPtr) (file : Option DictFile) : Res (Heap × DictPtr × Option Bool) := do
  let (h, _) ← close h d
  match file with
  | none => pure (h, null, some false)
  | some f =>
    let (dictFile, h) := h.alloc
    let (trie, h) := trieRead h f.trie
    let (h, data) ← readDataBank h f.rest
    match data with
    | none => pure (h, ⟨trie, none⟩, none)
    | some data => do
      let h ← h.free dictFile
      pure (h, ⟨trie, data⟩, some (trie.isSome && data.isSome))

/-- An operation on an object. -/
inductive Op where
  | open_ (file : Option DictFile)
  | close

/-- A sequence of operations. (Exceptions are caught by the user, who goes on.) -/
def run (h : Heap) (d : DictPtr) : List Op → Res (Heap × DictPtr)
  | [] => .ok (h, d)
  | .close :: ops => do
    let (h, d) ← close h d
    run h d ops
  | .open_ f :: ops => do
    let (h, d, _) ← open_ h d f
    run h d ops

/-- The life of an object: default constructor, operations, destructor. -/
def life (h : Heap) (ops : List Op) : Res Heap := do
  let (h, d) ← run h null ops
  let (h, _) ← close h d
  pure h

/-- The implicitly declared copy constructor (dict.h declares none): the pointers are copied. -/
def copy (d : DictPtr) : DictPtr := d

end DictPtr

/-- Destruction of what a `unique_ptr<Dict>` points to, if anything. -/
def resetPtr (h : Heap) : Option (Nat × DictPtr) → Res Heap
  | none => .ok h
  | some (y, d) => do
    let (h, _) ← DictPtr.close h d
    h.free y

/-- `Parser::loadExceptDict`, parser.cxx:1951-1956: the old `Dict`, if any, is destroyed, and a new one opened.
`none`: an exception. -/
def loadPtr (h : Heap) (p : Option (Nat × DictPtr)) (file : Option DictFile) :
    Res (Heap × Option (Nat × DictPtr) × Option Bool) := do
  let (x, h) := h.alloc
  let h ← resetPtr h p
  let (h, d, r) ← DictPtr.open_ h DictPtr.null file
  pure (h, some (x, d), r)

/-- Several loads. -/
def loadsPtr (h : Heap) (p : Option (Nat × DictPtr)) : List (Option DictFile) → Res (Heap × Option (Nat × DictPtr))
  | [] => .ok (h, p)
  | f :: fs => do
    let (h, p, _) ← loadPtr h p f
    loadsPtr h p fs

/-- The life of a parser: constructor, loads, destructor (parser.cxx:1924-1949; `unique_ptr` destroys the `Dict`). The
word breaker is not modelled. -/
def parserLife (h : Heap) (fs : List (Option DictFile)) : Res Heap := do
  let (h, p) ← loadsPtr h none fs
  resetPtr h p

end Thpronun
