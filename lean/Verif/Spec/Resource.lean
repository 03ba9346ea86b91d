import Verif.Model.Resource

/-! # Specification of ownership -/

namespace Thpronun
open scoped List

namespace Spec

/-- The heap has exactly the handles `L` live, each once. -/
def Owns (h : Heap) (L : List Nat) : Prop := h.live.Nodup ∧ (∀ x ∈ h.live, x < h.next) ∧ h.live.Perm L

/-- What an object owns. -/
def handles (d : DictPtr) : List Nat := d.mTrie.toList ++ d.mData.toList

/-- The size field of the data bank is negative. -/
def negSize : Option DictFile → Bool
  | none => false
  | some f =>
    match Dict.readInt32 f.rest with
    | none => false
    | some (n, _) => decide (n < 0)

/-- The number of opens that end by an exception. -/
def badOpens (ops : List DictPtr.Op) : Nat :=
  ops.countP fun o => match o with | .open_ f => negSize f | .close => false

end Spec
end Thpronun
