import Verif.Model.Iter

/-! # What it means that iterators are used correctly -/

namespace Thpronun
namespace Spec

/-- The container is a list: its elements are those of `l`, no two have the same identity, and none an identity that a new
element may get. -/
structure Rep {α : Type} (c : Cont α) (l : List α) : Prop where
  vals : c.cells.map Prod.snd = l
  nodup : (c.cells.map Prod.fst).Nodup
  old : ∀ x ∈ c.cells, x.1 < c.fresh

/-- The same for the two containers of a DAG. -/
structure RepD {V : Type} (i : IDag V) (d : DAG V) : Prop where
  out : Rep i.mFrom d.mFrom
  inn : Rep i.mTo d.mTo

/-- Both programs end in the same way, with results that belong together. -/
inductive Alike {α β : Type} (R : α → β → Prop) : Res α → Res β → Prop
  | ok {a : α} {b : β} : R a b → Alike R (.ok a) (.ok b)
  | throw (e : Exc) : Alike R (.throw e) (.throw e)
  | ub : Alike R .ub .ub
  | diverge : Alike R .diverge .diverge

end Spec
end Thpronun
