import Verif.Spec.Dict
import Verif.Spec.Syl
import Mathlib.Data.List.Forall2

/-! # The source file of a dictionary, whatever its contents

Independent of the reader: how a file is cut into lines, what a line says. -/

namespace Thpronun.Spec

/-- The first byte of a character in UTF-8 (as first defined, with sequences of up to seven bytes): the number of bytes
that follow, and the bits it carries. -/
def leadByte (h : Nat) : Option (Nat × Nat) :=
  if h < 0x80 then some (0, h)
  else if h < 0xc0 then none
  else if h < 0xe0 then some (1, h - 0xc0)
  else if h < 0xf0 then some (2, h - 0xe0)
  else if h < 0xf8 then some (3, h - 0xf0)
  else if h < 0xfc then some (4, h - 0xf8)
  else if h < 0xfe then some (5, h - 0xfc)
  else if h < 0xff then some (6, 0)
  else none

/-- The bytes `s` are one character, with code `c` (in 32 bits). -/
def CharAs (s : Str) (c : Nat) : Prop :=
  ∃ h cs v, s = h :: cs ∧ leadByte h = some (cs.length, v) ∧ (∀ b ∈ cs, 0x80 ≤ b ∧ b < 0xc0) ∧
    c = cs.foldl (fun v b => v * 0x40 + (b - 0x80)) v % 0x100000000

/-- The bytes are a sequence of characters. -/
inductive WordAs : Str → List Nat → Prop
  | nil : WordAs [] []
  | cons (p s c w) (h : CharAs p c) (r : WordAs s w) : WordAs (p ++ s) (c :: w)

/-- What a line says: a word, up to the first TAB, and data. A zero ends the word. -/
def LineAs (l : Str) (e : DEntry) : Prop :=
  ∃ f w, l = f ++ 9 :: e.data ∧ 9 ∉ f ∧ WordAs f w ∧ e.word = w.takeWhile (· ≠ 0)

/-- The lines of a file, as the generator sees them: what stands between newlines, but cut after every 255 bytes. -/
inductive FileLines : Str → List Str → Prop
  | nil : FileLines [] []
  | line (l f ls) (h : 10 ∉ l) (hn : l.length ≤ 254) (r : FileLines f ls) : FileLines (l ++ 10 :: f) (l :: ls)
  | cut (l f ls) (h : 10 ∉ l) (hn : l.length = 255) (r : FileLines f ls) : FileLines (l ++ f) (l :: ls)
  | last (l) (h : 10 ∉ l) (hn : 0 < l.length ∧ l.length ≤ 254) : FileLines l [l]

/-- What is seen of a line that has a NUL in it. -/
def beforeNul (l : Str) : Str := l.takeWhile (· ≠ 0)

/-- All characters can be stored. -/
def ThaiWord (w : List Nat) : Prop := ∀ c ∈ w, 0x0e01 ≤ c ∧ c ≤ 0x0e5b

instance (w) : Decidable (ThaiWord w) := by unfold ThaiWord; infer_instance

/-! ## Messages -/

/-- What is said about a line that is no entry. -/
def Complaint (l t : Str) : Prop :=
  (9 ∉ l ∧ t = b!"Cannot find TAB delimeter.\nLine:" ++ l ++ b!"\n") ∨
  ∃ f d, l = f ++ 9 :: d ∧ 9 ∉ f ∧ t = b!"Fail to convert word '" ++ f ++ b!"'.\n"

/-- `t` is `c` as a hexadecimal number of eight digits. -/
def IsHex (c : Nat) (t : Str) : Prop :=
  ∃ ds : List Nat, ds.length = 8 ∧ (∀ d ∈ ds, d < 16) ∧ c = ds.foldl (fun v d => v * 16 + d) 0 ∧
    List.Forall₂ (fun d x => b!"0123456789abcdef"[d]? = some x) ds t

/-- What is said about an entry that cannot be stored. -/
def Refusal (e : DEntry) (t : Str) : Prop :=
  ∃ hs, List.Forall₂ IsHex e.word hs ∧
    t = b!"Failed to store word of length " ++ natDec e.word.length ++ b!", data '" ++ e.data ++ b!"'\nWord: [" ++
      joinWith ch!"," hs ++ b!"]\n"

end Thpronun.Spec
