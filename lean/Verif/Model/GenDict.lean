import Verif.Model.Dict

/-! # Dictionary generator: `dict/gen-lookup-dict.c` -/

namespace Thpronun.Gen

/-! ## Data bank, gen-lookup-dict.c:18-91 -/

/-- gen-lookup-dict.c:24-28. The pool is an array of `poolSize` bytes (here: its contents). Sizes are
naturals: the model assumes that they stay below 2^31 and that `malloc`/`realloc` succeed. -/
structure DataBank where
  pool : Str
  dataSize : Nat
  deriving DecidableEq, Repr

/-- `poolSize` is kept equal to the size of the array. -/
def DataBank.poolSize (b : DataBank) : Nat := b.pool.length

/-- gen-lookup-dict.c:32-54 (`junk`: contents of fresh memory) -/
def newDataBank (junk : Byte) : DataBank := ⟨List.replicate 256 junk, 0⟩

/-- gen-lookup-dict.c:63-81. Returns the bank and the index of the new block. -/
def dataBankAllocate (junk : Byte) (b : DataBank) (nBytes : Nat) : DataBank × Nat :=
  let curSize := b.dataSize
  let newSize := curSize + nBytes
  if newSize > b.poolSize then
    let newPoolSize := max (b.poolSize * 2) newSize
    (⟨b.pool ++ List.replicate (newPoolSize - b.poolSize) junk, newSize⟩, curSize)
  else (⟨b.pool, newSize⟩, curSize)

/-- Storing `bytes` into the array from index `i`: UB beyond its end. -/
def writeAt (pool : Str) (i : Nat) (bytes : Str) : Res Str :=
  if i + bytes.length ≤ pool.length then
    .ok (pool.take i ++ bytes ++ pool.drop (i + bytes.length))
  else .ub

/-- gen-lookup-dict.c:83-91 (`data` without its NUL) -/
def dataBankAddData (junk : Byte) (b : DataBank) (data : Str) : Res (DataBank × Nat) :=
  let (b, idx) := dataBankAllocate junk b (data.length + 1)
  do
    let pool ← writeAt b.pool idx (data ++ [0])
    pure (⟨pool, b.dataSize⟩, idx)

/-- gen-lookup-dict.c:93-104: the four bytes written (arithmetic shift, `& 0xff`). -/
def fileWriteInt32 (val : Int) : Str :=
  let n := (val % 0x100000000).toNat
  [n / 0x1000000 % 0x100, n / 0x10000 % 0x100, n / 0x100 % 0x100, n % 0x100]

/-- gen-lookup-dict.c:106-117: bytes written to a file without I/O errors. -/
def dataBankWrite (b : DataBank) : Str := fileWriteInt32 b.dataSize ++ b.pool.take b.dataSize

/-! ## UTF-8 reader, gen-lookup-dict.c:138-178 -/

/-- `while (h & check) { check >>= 1; mask >>= 1; }`, lines 154-157; at most seven turns, after
which `check` is 0. -/
def leadLoop (h : Byte) : Nat → Nat → Nat → Nat × Nat
  | 0, check, mask => (check, mask)
  | f + 1, check, mask =>
    if h &&& check ≠ 0 then leadLoop h f (check / 2) (mask / 2) else (check, mask)

/-- Lines 163-171: `check` is shifted left (within 8 bits) for every continuation byte until it is
0x40. The input is a C string; its end reads as NUL. -/
def contLoop : Nat → Nat → Str → Option (Nat × Str)
  | check, uc, [] => if check = 0x40 then some (uc, []) else none
  | check, uc, b :: bs =>
    if check = 0x40 then some (uc, b :: bs)
    else if b &&& 0xc0 ≠ 0x80 then none
    else contLoop (check * 2 % 256) ((uc * 64 + (b &&& 0x3f)) % 0x100000000) bs

/-- `GetUTF8` on a C string (given without its NUL): the code and the rest, or failure. -/
def getUTF8 : Str → Option (Nat × Str)
  | [] => none
  | h :: r =>
    if h &&& 0x80 = 0 then some (h, r)
    else
      let (check, mask) := leadLoop h 7 0x40 0x3f
      if check = 0x40 then none else contLoop check (h &&& mask) r

/-! ## Reading the input, gen-lookup-dict.c:180-229 -/

/-- `fgets (line, n + 1, input)`: at most `n` bytes, up to and including a newline. Returns the
bytes stored and the rest of the file. -/
def fgets : Nat → Str → Str × Str
  | 0, f => ([], f)
  | _ + 1, [] => ([], [])
  | n + 1, b :: bs => if b = 10 then ([b], bs) else let (l, r) := fgets n bs; (b :: l, r)

/-- The loop of lines 212-219 (`n`: remaining room in `word`). -/
def wordLoop : Nat → Str → Option (List Nat)
  | 0, _ => some []
  | n + 1, s =>
    match s with
    | [] => some []
    | _ :: _ =>
      match getUTF8 s with
      | none => none
      | some (c, r) => (wordLoop n r).map (c :: ·)

/-- `ReadInput` with `wordMax = dataMax = 256`, lines 180-229: `none` is `EXIT_FAILURE` (end of
file or a bad line). Also returns the rest of the file. `line[lineLeft - 1]` with an empty line
buffer string (first byte NUL) is read out of bounds: UB. -/
def readInput (file : Str) : Res (Option (List Nat × Str) × Str) :=
  let (buf, rest) := fgets 255 file
  if buf = [] then .ok (none, rest)
  else
    let line := buf.takeWhile (· ≠ 0)
    if line = [] then .ub
    else
      let line := if line.getLast? = some 10 then line.dropLast else line
      if 9 ∉ line then .ok (none, rest)
      else
        let field1 := line.takeWhile (· ≠ 9)
        let data := (line.dropWhile (· ≠ 9)).drop 1
        match wordLoop 255 field1 with
        | none => .ok (none, rest)
        | some w => .ok (some (w, data), rest)

/-! ## Main loop, gen-lookup-dict.c:231-275 -/

/-- Alphabet of the trie, gen-lookup-dict.c:130-131 -/
def inAlphabet (c : Nat) : Bool := decide (0x0e01 ≤ c) && decide (c ≤ 0x0e5b)

/-- `trie_store` (libdatrie): the key is a NUL-terminated array (an overlong NUL in the source ends the
word). Fails on a character outside the alphabet, else (re)binds the word. -/
def trieStore (t : Trie) (key : List Nat) (i : Int) : Option Trie :=
  let w := key.takeWhile (· ≠ 0)
  if w.all inAlphabet then some ((w, i) :: t.filter fun e => e.1 ≠ w) else none

/-- Result of the generator. -/
inductive GenResult where
  | failure                       -- `EXIT_FAILURE`
  | success (trie : Trie) (bank : DataBank)
  deriving DecidableEq, Repr

/-- The loop of lines 239-262, fuelled by the length of the file. -/
def genLoop (junk : Byte) : Nat → Str → Trie → DataBank → Res GenResult
  | 0, _, _, _ => .diverge
  | fuel + 1, file, trie, bank => do
    let (r, rest) ← readInput file
    match r with
    | none => pure (.success trie bank)
    | some (word, data) =>
      let (bank, idx) ← dataBankAddData junk bank data
      match trieStore trie word idx with
      | none => pure .failure
      | some trie => genLoop junk fuel rest trie bank

/-- `GenDict`, lines 231-275 -/
def genDict (junk : Byte) (file : Str) : Res GenResult :=
  genLoop junk (file.length + 1) file [] (newDataBank junk)

/-- The dictionary file written on success (lines 264-265); `trie_fread` is trusted to read back
what `trie_fwrite` wrote. -/
def GenResult.file : GenResult → Option DictFile
  | .failure => none
  | .success t b => some ⟨some t, dataBankWrite b⟩

end Thpronun.Gen
