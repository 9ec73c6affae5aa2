import Verif.Spec.JsonText
/-
Specification: what the scalars of JSON mean to an importer that reads from a `std::istream`. They differ from the
meaning for a string (`jsem`) in the integers and in the strings that can be skipped and copied.
-/
namespace Thors.Spec
open Thors StrIn

/-- The number congruent to `i` modulo `2^bits` in the range of the signed type. -/
def asSigned (bits : Nat) (i : Int) : Int :=
  let r := i % (2 ^ bits : Int)
  if r < 2 ^ (bits - 1) then r else r - 2 ^ bits

/-- What an integer type of a C++ program holds after reading the literal `t` of value `i` from a stream: the absolute value,
cut off at the largest unsigned value of the type's width, then negated and converted. -/
def streamInt (k : IntKind) (t : Bytes) (i : Int) : Int :=
  let neg : Bool := t.head? = some 0x2D
  if k.signed then asSigned k.bits (if neg then -((min i.natAbs (2 ^ k.bits - 1) : Nat) : Int) else ((min i.natAbs (2 ^ k.bits - 1) : Nat) : Int))
  else if i.natAbs ≥ 2 ^ k.bits then 2 ^ k.bits - 1
  else if neg then (-(i.natAbs : Int)) % 2 ^ k.bits
  else i.natAbs

/-- A string can be skipped and copied when its body does not end in a backslash. -/
def JStr.streamSkips (s : JStr) : Bool := s.raw.getLast? ≠ some 0x5C

/-- What a floating point type holds after reading a number from a stream: the nearest value; the largest one (with the sign
of the number) if the number is too large. -/
def streamFlt (f : FKind) (x : Decimal) : Flt :=
  if (x.round f).2 > f.emax then .fin x.neg (2 ^ f.prec - 1) f.emax else .fin x.neg (x.round f).1 (x.round f).2

/-- The scalars of JSON, read from a stream. -/
def jssem (conv : Bool) : ScalarSem JStr JScalar where
  isNull x := decide (x = .null)
  readInt k
    | .int t i => .ok (streamInt k t i)
    | _ => throwStd
  readFlt f x :=
    match x.number with
    | some d => .ok (streamFlt f d)
    | none => throwStd
  readBool
    | .bool b => .ok b
    | _ => throwStd
  readStr
    | .str s => .ok (s.val conv)
    | _ => throwStd
  raw
    | .null => some b!"null"
    | .bool b => some (if b then b!"true" else b!"false")
    | .int t _ => some t
    | .frac t _ => some t
    | .str s => if s.streamSkips then some ([0x22] ++ s.raw ++ [0x22]) else none
  skips
    | .str s => s.streamSkips
    | _ => true
  key k := k.val conv
  keySkips k := k.streamSkips

/-- Every scalar of the document satisfies `P` and every key satisfies `Q`. -/
def Every (P : JScalar → Prop) (Q : JStr → Prop) : JTree → Prop
  | .scalar x => P x
  | .arr vs => elems vs
  | .obj ms => members ms
where
  elems : List JTree → Prop
  | [] => True
  | v :: vs => Every P Q v ∧ elems vs
  members : List (JStr × JTree) → Prop
  | [] => True
  | (k, v) :: ms => Q k ∧ Every P Q v ∧ members ms

/-- The decimal number is not larger than the largest value of the type, and zero or not smaller than the smallest one. -/
def FltRange (f : FKind) (x : Decimal) : Prop :=
  decNum f x ≤ (2 ^ f.prec - 1) * 2 ^ f.emax * decDen x ∧ (x.n = 0 ∨ decDen x ≤ decNum f x)

/-- Integers that every type in `P` has, written without a minus sign where such a type is unsigned; numbers in the range of
every floating point type in `F`; strings without the byte 0xFF. -/
def inRange (P : IntKind → Prop) (F : FKind → Prop) (x : JScalar) : Prop :=
  (match x with
    | .int t i => ∀ k, P k → InRange k i ∧ (k.signed = false → t.head? ≠ some 0x2D)
    | .str s => (0xFF : Byte) ∉ s.raw
    | _ => True) ∧
  ∀ d, x.number = some d → ∀ f, F f → FltRange f d

end Thors.Spec
