import Verif.Model.GenText

/-! # The dictionary generator as a program: `dict/gen-lookup-dict.c`, `main` -/

namespace Thpronun.Gen

/-- The files: what is stored under a path. Different paths are different files. -/
abbrev Files := Str → Option Str

/-- What the generator uses of the system: whether a path can be opened for writing, the bytes that `trie_fwrite`
(libdatrie) writes, and what arrives in a file of the bytes sent to it (all of them, unless the disk is full). -/
structure Sys where
  canWrite : Str → Bool
  trieBytes : Trie → Str
  arrive : Str → Str

/-- `fopen (path, "wb")` and writing: the file has this content, the others are as before. -/
def Files.set (fs : Files) (path content : Str) : Files := fun q => if q = path then some content else fs q

/-- How the program ends: the files after it, the exit status, the text on the standard output and on the standard error. -/
structure Ended where
  files : Files
  status : Nat
  out : Str
  err : Str

/-- `main`, gen-lookup-dict.c:283-323; `args` is `argv[1..argc-1]`. Nothing has been read of the input when
the output is opened (`source` is what is there then), and nothing is written before all has been read. The results of
`trie_fwrite`, `DataBankWrite` (lines 264-265) and `fclose` are not looked at. -/
def main (sys : Sys) (junk : Byte) (fs : Files) (args : List Str) : Res Ended :=
  match args with
  | [inp, outp] =>
    match fs inp with
    | none => .ok ⟨fs, 1, [], b!"Fail to open input file \"" ++ inp ++ b!"\" for reading.\n"⟩
    | some _ =>
      if sys.canWrite outp then
        let fs := fs.set outp []
        let source := (fs inp).getD []
        do
          match ← genDictT junk source with
          | (.failure, text) => pure ⟨fs, 1, [], text ++ b!"Fail to generate dictionary\n"⟩
          | (.success t b, text) => pure ⟨fs.set outp (sys.arrive (sys.trieBytes t ++ dataBankWrite b)), 0, [], text⟩
      else .ok ⟨fs, 1, [], b!"Fail to open output file \"" ++ outp ++ b!"\" for writing.\n"⟩
  | _ => .ok ⟨fs, 1, b!"Usage: gen-lookup-dict <input-file> <dict-file>\n", []⟩

end Thpronun.Gen
