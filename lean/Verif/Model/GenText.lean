import Verif.Model.GenDict
import Verif.Model.Syl

/-! # What the dictionary generator prints: the messages of `dict/gen-lookup-dict.c`

The functions of `Model.GenDict` once more, together with the bytes that they write to the standard error. (`genDictT_fst`:
otherwise they are the same.) -/

namespace Thpronun.Gen

/-- `ReadInput`, gen-lookup-dict.c:180-229, as `readInput`; the last component is what is written to the standard error: lines
200-201 (the line without its newline) and 216 (the line ends at the TAB, which has been replaced by NUL in line 204). Nothing is
written at the end of the file. -/
def readInputT (file : Str) : Res ((Option (List Nat × Str) × Str) × Str) :=
  let (buf, rest) := fgets 255 file
  if buf = [] then .ok ((none, rest), [])
  else
    let line := buf.takeWhile (· ≠ 0)
    if line = [] then .ub
    else
      let line := if line.getLast? = some 10 then line.dropLast else line
      if 9 ∉ line then .ok ((none, rest), b!"Cannot find TAB delimeter.\nLine:" ++ line ++ b!"\n")
      else
        let field1 := line.takeWhile (· ≠ 9)
        let data := (line.dropWhile (· ≠ 9)).drop 1
        match wordLoop 255 field1 with
        | none => .ok ((none, rest), b!"Fail to convert word '" ++ field1 ++ b!"'.\n")
        | some w => .ok ((some (w, data), rest), [])

/-- A hexadecimal digit -/
def hexDigit (d : Nat) : Byte := if d < 10 then 48 + d else 87 + d

/-- `%08lx` for a value below 2^32: the lowest digits, `n` of them. The argument in line 257 has the type `AlphaChar` of
libdatrie; where that is not as wide as `long` the call is undefined by the C standard, which is not modelled. -/
def hexDigits : Nat → Nat → Str
  | 0, _ => []
  | n + 1, v => hexDigits n (v / 16) ++ [hexDigit (v % 16)]

/-- The loop of lines 253-258, `first`: `pWord == word` -/
def hexLoop : Bool → List Nat → Str
  | _, [] => []
  | first, c :: cs => (if first then [] else b!",") ++ hexDigits 8 c ++ hexLoop false cs

/-- Lines 250-259; both `alpha_char_strlen` and the loop end at a zero. -/
def storeText (word : List Nat) (data : Str) : Str :=
  let w := word.takeWhile (· ≠ 0)
  b!"Failed to store word of length " ++ toStringInt w.length ++ b!", data '" ++ data ++ b!"'\n" ++
    b!"Word: [" ++ hexLoop true w ++ b!"]\n"

/-- The loop of lines 239-261, as `genLoop`. The memory for the data is there (line 244 is not reached). -/
def genLoopT (junk : Byte) : Nat → Str → Trie → DataBank → Res (GenResult × Str)
  | 0, _, _, _ => .diverge
  | fuel + 1, file, trie, bank => do
    let ((r, rest), text) ← readInputT file
    match r with
    | none => pure (.success trie bank, text)
    | some (word, data) =>
      let (bank, idx) ← dataBankAddData junk bank data
      match trieStore trie word idx with
      | none => pure (.failure, storeText word data)
      | some trie => genLoopT junk fuel rest trie bank

/-- `GenDict`, lines 231-275 -/
def genDictT (junk : Byte) (file : Str) : Res (GenResult × Str) :=
  genLoopT junk (file.length + 1) file [] (newDataBank junk)

end Thpronun.Gen
