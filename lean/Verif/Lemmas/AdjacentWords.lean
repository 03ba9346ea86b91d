import Verif.Spec.Adjacent
import Verif.Props.Parser

/-! # A word for every pair of characters that can stand side by side

The table is checked for all pairs of Thai characters. -/

namespace Thpronun.Side
open Spec

/-- The Thai letters and signs, and the period. -/
def consonants : U16Str := u!"กขฃคฅฆงจฉชซฌญฎฏฐฑฒณดตถทธนบปผฝพฟภมยรลวศษสหฬอฮ"

/-- The vowels, marks and the period. -/
def others : U16Str := u!"ฤฦะัาำิีึืุูเแโใไๅ็่้๊๋์."

/-- What stands before and after the pair `a` `b` in the word for it. -/
def around (a b : Nat) : U16Str × U16Str :=
  if a ∈ consonants then
    if b = ch!"ฦ" then (u!"เ", [])
    else if b = ch!"์" then (u!"เก", [])
    else if b = ch!"็" then ([], u!"อก")
    else if b ∈ u!"ะาำิีึืุู." then ([], [])
    else ([], u!"ก")
  else if a = ch!"ฤ" then
    if b ∈ consonants then ([], u!"า")
    else if b ∈ u!"าๅ" then ([], [])
    else if b ∈ u!"ฤฦ." then (u!"เก", [])
    else if IsLead b then (u!"เก", u!"ก")
    else if b = ch!"็" then (u!"ก", u!"อก")
    else if b ∈ u!"ั่้๊๋" then (u!"ก", u!"ก")
    else (u!"ก", [])
  else if a = ch!"ฦ" then
    if b ∈ consonants then ([], u!"า") else ([], [])
  else if a = ch!"ั" then
    if b ∈ consonants then (u!"ก", []) else (u!"ก", u!"ก")
  else if a = ch!"ื" ∧ b ∈ consonants then (u!"ก", [])
  else if IsLead a then ([], [])
  else if a = ch!"็" then
    if b = ch!"อ" then (u!"ก", u!"ก") else (u!"เก", [])
  else if IsMark a then
    if b ∈ consonants then (u!"เก", u!"า")
    else if b ∈ u!"ะาำ" then (u!"ก", [])
    else if b = ch!"็" then (u!"แก", u!"ก")
    else if IsLead b then (u!"เก", u!"ก")
    else (u!"เก", [])
  else if a = ch!"." then
    if IsLead b then ([], u!"ก") else ([], [])
  else
    let pre := if a = ch!"ๅ" then u!"ฤ" else if a = ch!"์" then u!"กาก" else if b = ch!"ะ" then u!"เก"
      else if b = ch!"์" then u!"โกก" else u!"ก"
    if b ∈ consonants ∨ IsLead b then (pre, u!"ก") else (pre, [])

/-- The word is read. -/
def isRead (w : U16Str) : Bool :=
  parsesTo 100 w none [] fun d => match PronunDAG.sylStrings d 0 with | .ok (_ :: _) => true | _ => false

/-- The word for the pair is read. -/
def shown (a b : Nat) : Bool := isRead ((around a b).1 ++ a :: b :: (around a b).2)

theorem around_small (a b : Nat) : (∀ c ∈ (around a b).1, c < 0xd800) ∧ ∀ c ∈ (around a b).2, c < 0xd800 := by
  have key : ∀ {P : Prop} [Decidable P] {x y : U16Str × U16Str}, ((∀ c ∈ x.1, c < 0xd800) ∧ ∀ c ∈ x.2, c < 0xd800) →
      ((∀ c ∈ y.1, c < 0xd800) ∧ ∀ c ∈ y.2, c < 0xd800) →
      (∀ c ∈ (if P then x else y).1, c < 0xd800) ∧ ∀ c ∈ (if P then x else y).2, c < 0xd800 := by
    intro P _ x y hx hy
    by_cases h : P
    · rw [if_pos h]; exact hx
    · rw [if_neg h]; exact hy
  have key' : ∀ {P : Prop} [Decidable P] {x y : U16Str}, (∀ c ∈ x, c < 0xd800) → (∀ c ∈ y, c < 0xd800) →
      ∀ c ∈ (if P then x else y), c < 0xd800 := by
    intro P _ x y hx hy
    by_cases h : P
    · rw [if_pos h]; exact hx
    · rw [if_neg h]; exact hy
  unfold around
  dsimp only
  repeat' with_reducible apply key
  all_goals first | decide | skip
  all_goals refine ⟨?_, by dsimp only; decide⟩
  all_goals dsimp only
  all_goals repeat' with_reducible apply key'
  all_goals decide

end Thpronun.Side
