import Verif.Spec.Listed

/-! # The conditions on texts without mixing, one by one -/

namespace Thpronun.Spec

/-- The conditions of `Unmixed` in order. -/
def unmixedClauses (ct : CType) (w : U16Str) (look : List Nat → Option Str) (brk : List Int) : List Prop :=
  [ ch!"." ∉ w,
    ∀ p q data strs str, look (piece w p q) = some data → DataIs data strs → str ∈ strs → str.length = 1,
    ¬ u!"บริ" <:+: w,
    ¬ u!"จระ" <:+: w,
    ∀ q t l o r t' o' r', TokenTo ct w brk q t → Spelled ct w t q l o r → r.linked = true →
      TokenTo ct w brk r.stop t' → Spelled ct w t' r.stop false o' r' → Spelled ct w t' r.stop true o' r' ]

end Thpronun.Spec
