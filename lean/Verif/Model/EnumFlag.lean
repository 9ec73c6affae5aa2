import Verif.Model.Basic
/-
Model of the enums of flags, `ThorsAnvil_MakeEnumFlag` (`/repo/src/Serialize/Traits.h:813-853`). A value is a number below 2^32: the enumerators of a
scoped enum are `int`, here seen through `static_cast<unsigned int>`.
-/
namespace Thors


/-- The enumerators in the list of the macro, with their names, and the value of `EnumName::empty`. -/
structure FlagEnum where
  values : List (Nat × Bytes)
  empty : Nat

namespace FlagEnum

/-- Traits.h:817. -/
def and (a b : Nat) : Nat := a &&& b

/-- Traits.h:818. -/
def or (a b : Nat) : Nat := a ||| b

/-- Traits.h:819. -/
def xor (a b : Nat) : Nat := a ^^^ b

/-- Traits.h:832-835, 847: the `std::map` made of the list, in which the first of two equal keys stays, and `find(flag)->second`, which is undefined if there is none. -/
def name (E : FlagEnum) (flag : Nat) : Res Bytes :=
  match E.values.find? (fun e => e.1 == flag) with
  | some e => .ok e.2
  | none => .ub

/-- Traits.h:837-849, the loop, for the bits that are left. -/
def loop (E : FlagEnum) (value : Nat) : List Nat → Bool → Res Bytes
  | [], _ => .ok []
  | i :: is, first =>
    if and value (1 <<< i) ≠ E.empty then do
      let n ← E.name (1 <<< i)
      let r ← loop E value is false
      return (if first then [] else b!" | ") ++ n ++ r
    else loop E value is first

/-- Traits.h:823-852 `operator<<`: what is written. -/
def print (E : FlagEnum) (value : Nat) : Res Bytes :=
  if value = E.empty then .ok b!"empty" else E.loop value (List.range 32) true

end FlagEnum
end Thors
