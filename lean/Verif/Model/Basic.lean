/-!
# Outcomes, strings and literals shared by the model

C++ functions of `/repo` are modelled as functions into `Res`, where throwing a standard
exception, undefined behaviour and running out of fuel are all distinct from a normal result.
-/

namespace Thpronun

/-- Standard exceptions that can escape from the modelled code. -/
inductive Exc where
  | outOfRange        -- `std::out_of_range`  (`at`, `substr`, `stoi`)
  | invalidArgument   -- `std::invalid_argument` (`stoi`)
  | rangeError        -- `std::range_error` (`wstring_convert`)
  | badAlloc          -- `std::bad_array_new_length` / `std::bad_alloc` (`new char[n]`)
  deriving DecidableEq, Repr

/-- Outcome of a modelled function. -/
inductive Res (α : Type u) where
  | ok (a : α)
  | throw (e : Exc)
  | ub                -- undefined behaviour
  | diverge           -- fuel exhausted (non-termination)
  deriving DecidableEq, Repr

namespace Res

/-- Sequencing: anything but a normal result stops the computation. -/
@[inline] def bind {α β} (r : Res α) (f : α → Res β) : Res β :=
  match r with
  | ok a => f a
  | throw e => throw e
  | ub => ub
  | diverge => diverge

instance : Monad Res where
  pure := Res.ok
  bind := Res.bind

@[simp] theorem pure_eq {α} (a : α) : (pure a : Res α) = Res.ok a := rfl
@[simp] theorem ok_bind {α β} (a : α) (f : α → Res β) : (Res.ok a >>= f) = f a := rfl
@[simp] theorem throw_bind {α β} (e : Exc) (f : α → Res β) :
    ((Res.throw e : Res α) >>= f) = Res.throw e := rfl
@[simp] theorem ub_bind {α β} (f : α → Res β) : ((Res.ub : Res α) >>= f) = Res.ub := rfl
@[simp] theorem diverge_bind {α β} (f : α → Res β) :
    ((Res.diverge : Res α) >>= f) = Res.diverge := rfl
@[simp] theorem map_eq {α β} (f : α → β) (r : Res α) : f <$> r = r >>= fun a => ok (f a) := rfl

/-- `Sat r P`: the computation returns normally and its result satisfies `P`. -/
def Sat {α} (r : Res α) (P : α → Prop) : Prop :=
  match r with
  | ok a => P a
  | _ => False

instance {α} (r : Res α) (P : α → Prop) [DecidablePred P] : Decidable (Sat r P) := by
  unfold Sat; cases r <;> infer_instance

/-- `SatP r P`: if the computation returns normally, its result satisfies `P`. -/
def SatP {α} (r : Res α) (P : α → Prop) : Prop :=
  match r with
  | ok a => P a
  | _ => True

/-- The computation neither has undefined behaviour nor diverges (it may throw). -/
def NoUB {α} (r : Res α) : Prop := r ≠ ub ∧ r ≠ diverge

/-- The computation returns normally. -/
def IsOk {α} (r : Res α) : Prop := ∃ a, r = ok a

@[simp] theorem sat_ok {α} (a : α) (P : α → Prop) : Sat (ok a) P ↔ P a := Iff.rfl
@[simp] theorem sat_throw {α} (e) (P : α → Prop) : Sat (throw e) P ↔ False := Iff.rfl
@[simp] theorem sat_ub {α} (P : α → Prop) : Sat ub P ↔ False := Iff.rfl
@[simp] theorem sat_diverge {α} (P : α → Prop) : Sat diverge P ↔ False := Iff.rfl
@[simp] theorem satP_ok {α} (a : α) (P : α → Prop) : SatP (ok a) P ↔ P a := Iff.rfl
@[simp] theorem satP_throw {α} (e) (P : α → Prop) : SatP (throw e) P ↔ True := Iff.rfl
@[simp] theorem satP_ub {α} (P : α → Prop) : SatP ub P ↔ True := Iff.rfl
@[simp] theorem satP_diverge {α} (P : α → Prop) : SatP diverge P ↔ True := Iff.rfl

theorem sat_iff {α} (r : Res α) (P : α → Prop) : Sat r P ↔ ∃ a, r = ok a ∧ P a := by
  cases r <;> simp

theorem satP_iff {α} (r : Res α) (P : α → Prop) : SatP r P ↔ ∀ a, r = ok a → P a := by
  cases r <;> simp

theorem Sat.bind {α β} {r : Res α} {f : α → Res β} {P : α → Prop} {Q : β → Prop}
    (h : Sat r P) (hf : ∀ a, P a → Sat (f a) Q) : Sat (r >>= f) Q := by
  cases r <;> simp_all

theorem SatP.bind {α β} {r : Res α} {f : α → Res β} {P : α → Prop} {Q : β → Prop}
    (h : SatP r P) (hf : ∀ a, P a → SatP (f a) Q) : SatP (r >>= f) Q := by
  cases r <;> simp_all

theorem Sat.mono {α} {r : Res α} {P Q : α → Prop} (h : Sat r P) (hpq : ∀ a, P a → Q a) :
    Sat r Q := by
  cases r <;> simp_all

theorem SatP.mono {α} {r : Res α} {P Q : α → Prop} (h : SatP r P) (hpq : ∀ a, P a → Q a) :
    SatP r Q := by
  cases r <;> simp_all

theorem bind_eq_ok {α β} {r : Res α} {f : α → Res β} {b : β} :
    (r >>= f) = ok b ↔ ∃ a, r = ok a ∧ f a = ok b := by
  cases r <;> simp

theorem bind_assoc' {α β γ} (r : Res α) (f : α → Res β) (g : β → Res γ) :
    (r >>= f) >>= g = r >>= fun a => f a >>= g := by
  cases r <;> rfl

end Res

/-- A byte (`char` / `unsigned char`), 0..255. `std::string` is a list of bytes. -/
macro "Byte" : term => `(Nat)
/-- A UTF-16 code unit (`char16_t`), 0..65535. `std::u16string` is a list of units. -/
macro "U16" : term => `(Nat)
abbrev Str := List Byte
abbrev U16Str := List U16

/-- `b!"…"` is the list of UTF-8 bytes of a string literal (a plain list of numerals,
so that the kernel can compute with it). -/
macro:max "b!" s:str : term => do
  let bytes := s.getString.toUTF8.toList
  let elems : Array (Lean.TSyntax `term) :=
    (bytes.map (fun b => (⟨Lean.Syntax.mkNumLit (toString b.toNat)⟩ : Lean.TSyntax `term))).toArray
  `(([$elems,*] : List Nat))

/-- `u!"…"` is the list of UTF-16 code units of a string literal. -/
macro:max "u!" s:str : term => do
  let units := s.getString.toList.flatMap (fun c =>
    let n := c.toNat
    if n < 0x10000 then [n] else
      let m := n - 0x10000
      [0xd800 + m / 0x400, 0xdc00 + m % 0x400])
  let elems : Array (Lean.TSyntax `term) :=
    (units.map (fun b => (⟨Lean.Syntax.mkNumLit (toString b)⟩ : Lean.TSyntax `term))).toArray
  `(([$elems,*] : List Nat))

/-- `ch!"x"` is the code point of a one-character literal. -/
macro:max "ch!" s:str : term => do
  match s.getString.toList with
  | [c] => pure ⟨Lean.Syntax.mkNumLit (toString c.toNat)⟩
  | _ => Lean.Macro.throwError "ch! needs exactly one character"

/-- `std::unordered_map::at` on a literal table: throws `out_of_range` for a missing key. -/
def mapAt {κ ν} [DecidableEq κ] (tbl : List (κ × ν)) (k : κ) : Res ν :=
  match tbl with
  | [] => .throw .outOfRange
  | (k', v) :: rest => if k' = k then .ok v else mapAt rest k

/-- `u16string::at`: throws `out_of_range` at or beyond the end. -/
def strAt (s : U16Str) (i : Nat) : Res U16 :=
  match s[i]? with
  | some c => .ok c
  | none => .throw .outOfRange

end Thpronun
