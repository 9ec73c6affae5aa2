import Verif.Model.EnumFlag
/-
What users expect of an enum of flags.
-/
namespace Thors.Spec
open Thors

/-- `name` is the name of the flag with bit `i` set and no other. -/
def Flag (E : FlagEnum) (i : Nat) (name : Bytes) : Prop := (2 ^ i, name) ∈ E.values

/-- A proper enum of flags: `empty` is 0, every value has one name, no name is given twice; names are not empty, have no spaces in them and differ from `empty`, except
that of 0. -/
structure FlagEnum.Proper (E : FlagEnum) : Prop where
  empty : E.empty = 0
  values : ∀ e ∈ E.values, ∀ e' ∈ E.values, e.1 = e'.1 ↔ e.2 = e'.2
  names : ∀ e ∈ E.values, e.2 ≠ [] ∧ (0x20 : Byte) ∉ e.2 ∧ (e.2 = b!"empty" → e.1 = 0)

/-- All flags set in `v` have a name. -/
def FlagEnum.Named (E : FlagEnum) (v : Nat) : Prop := ∀ i, v.testBit i = true → ∃ n, Flag E i n

/-- `ns` are the names of the flags set in `v` from the bit `i` on, in order. -/
inductive FlagNames (E : FlagEnum) (v : Nat) : Nat → List Bytes → Prop
  | done {i} : (∀ j, i ≤ j → v.testBit j = false) → FlagNames E v i []
  | unset {i ns} : v.testBit i = false → FlagNames E v (i + 1) ns → FlagNames E v i ns
  | set {i n ns} : v.testBit i = true → Flag E i n → FlagNames E v (i + 1) ns → FlagNames E v i (n :: ns)

/-- Texts with a bar between them. -/
def barred : List Bytes → Bytes
  | [] => []
  | [n] => n
  | n :: m :: ns => n ++ b!" | " ++ barred (m :: ns)

end Thors.Spec
