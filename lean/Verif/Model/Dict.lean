import Verif.Model.Basic

/-! # Dictionary: `dict/dict.{h,cxx,inl}`

The trie is library code (libdatrie) and is modelled abstractly: a finite map from words to
indices; a trie state is the string walked so far. `trie_state_walk` succeeds iff some stored word
extends the walked string. -/

namespace Thpronun

/-- libdatrie `Trie`: the stored words with their data, one entry per word. -/
abbrev Trie := List (U16Str × Int)

namespace Trie
/-- `trie_state_walk` + state: is there a stored word with this prefix? -/
def hasPrefix (t : Trie) (p : U16Str) : Bool := t.any fun e => p.isPrefixOf e.1
/-- `trie_state_is_terminal` / `trie_state_get_data` -/
def get (t : Trie) (w : U16Str) : Option Int := t.lookup w
end Trie

/-- A dictionary file as seen by the reader: what `trie_fread` makes of its first part (`none`:
not a trie) and the bytes that follow. -/
structure DictFile where
  trie : Option Trie
  rest : Str
  deriving DecidableEq, Repr

/-- dict.h:12-27 -/
structure Dict where
  mTrie : Option Trie
  mData : Option Str
  deriving DecidableEq, Repr

namespace Dict

/-- dict.inl:9-12 -/
def empty : Dict := ⟨none, none⟩

/-- Assignment of a 32-bit pattern to `int32_t` (two's complement). -/
def toInt32 (n : Nat) : Int := if n < 0x80000000 then (n : Int) else (n : Int) - 0x100000000

/-- dict.cxx:15-24: big-endian 4 bytes (`none`: fewer than four bytes left). -/
def readInt32 : Str → Option (Int × Str)
  | b0 :: b1 :: b2 :: b3 :: r =>
    some (toInt32 (b0 * 0x1000000 + b1 * 0x10000 + b2 * 0x100 + b3), r)
  | _ => none

/-- dict.cxx:26-40. `new char[n]` with `n < 0` throws; `fread` of a block of size 0 returns 0, so
that an empty bank counts as a failure. Allocation of a non-negative size is assumed to succeed. -/
def readDataBank (input : Str) : Res (Option Str) :=
  match readInt32 input with
  | none => .ok none
  | some (bankSize, r) =>
    if bankSize < 0 then .throw .badAlloc
    else if bankSize.toNat = 0 then .ok none
    else if r.length < bankSize.toNat then .ok none
    else .ok (some (r.take bankSize.toNat))

/-- dict.cxx:58-69 -/
def close (_ : Dict) : Dict := empty

/-- dict.cxx:42-56 (`file = none`: `fopen` fails). Returns the new state and the result. -/
def open_ (d : Dict) (file : Option DictFile) : Res (Dict × Bool) :=
  let d := close d
  match file with
  | none => .ok (d, false)
  | some f => do
    let data ← readDataBank f.rest
    pure (⟨f.trie, data⟩, f.trie.isSome && data.isSome)

/-- The C string starting at `p` in a char array: `ub` if there is no terminating NUL. -/
def cString : Str → Res Str
  | [] => .ub
  | b :: bs => if b = 0 then .ok [] else do pure (b :: (← cString bs))

/-- dict.inl:34-38 (`std::string (mData + dataIdx)`): UB on a null or out-of-range pointer. -/
def getData (d : Dict) (idx : Int) : Res Str :=
  match d.mData with
  | none => .ub
  | some bank => if idx < 0 then .ub else cString (bank.drop idx.toNat)

end Dict

/-- dict.h:30-45. `walked` is the trie state (`none`: no trie). -/
structure Match where
  word : U16Str
  beginPos : Nat
  curPos : Nat
  dict : Dict
  walked : Option U16Str
  deriving DecidableEq, Repr

namespace Match

/-- dict.cxx:76-86 -/
def new (word : U16Str) (beginPos : Nat) (dict : Dict) : Match :=
  ⟨word, beginPos, beginPos, dict, dict.mTrie.map fun _ => []⟩

/-- The loop of dict.cxx:101-108 over the remaining characters of the word. Returns the new
position, the new state and the result. -/
def findLoop (t : Trie) : Nat → U16Str → U16Str → Nat × U16Str × Bool
  | pos, walked, [] => (pos, walked, false)
  | pos, walked, c :: cs =>
    let w := walked ++ [c]
    if t.hasPrefix w then
      if (t.get w).isSome then (pos + 1, w, true) else findLoop t (pos + 1) w cs
    else (pos, walked, false)

/-- dict.cxx:95-111 -/
def findNext (m : Match) : Match × Bool :=
  match m.dict.mTrie, m.walked with
  | some t, some walked =>
    let (pos, w, r) := findLoop t m.curPos walked (m.word.drop m.curPos)
    ({ m with curPos := pos, walked := some w }, r)
  | _, _ => (m, false)

/-- dict.inl:45-49 -/
def getCurPos (m : Match) : Nat := m.curPos

/-- `TRIE_DATA_ERROR` (libdatrie) -/
def trieDataError : Int := -1

/-- dict.cxx:113-120 (`trie_state_get_data` on a null state: UB) -/
def getData (m : Match) : Res Str :=
  match m.dict.mTrie, m.walked with
  | some t, some w =>
    match t.get w with
    | none => .ok []
    | some i => if i = trieDataError then .ok [] else m.dict.getData i
  | _, _ => .ub

end Match

end Thpronun
