import Verif.Model.Cli
import Mathlib.Data.List.Forall2

/-! # Specification of the streams and the exit status -/

namespace Thpronun
open Cli

namespace Spec

/-- The exit status: 1 if an option ended the program, 0 after the words. -/
def status {α β : Type} : Res (α ⊕ β) → Res Nat
  | .ok (.inl _) => .ok 1
  | .ok (.inr _) => .ok 0
  | .throw e => .throw e
  | .ub => .ub
  | .diverge => .diverge

/-- The beginning of the block of a word at which the exception `e` ended the program: the word and a colon, and the
outputs before the one that failed. -/
def BrokenBlock (parse : Str → Res PronunDAG) (outs : List OutKind) (e : Exc) (word block : Str) : Prop :=
  (parse word = .throw e ∧ block = word ++ b!":\n") ∨
  ∃ d done k rest texts, parse word = .ok d ∧ outs = done ++ k :: rest ∧
    List.Forall₂ (fun k t => k.run d = .ok t) done texts ∧ k.run d = .throw e ∧
    block = word ++ b!":\n" ++ texts.flatMap fun t => t ++ b!"\n"

/-- The text about a dictionary that cannot be loaded. -/
def noDictText (dflt : Str) (path : Option Str) : Str :=
  b!"Failed to load exception dictionary " ++
    (match path with | some s => b!"'" ++ s ++ b!"'" | none => dflt) ++
    b!"\nWarning: Working without exception dictionary\n"

end Spec

end Thpronun
