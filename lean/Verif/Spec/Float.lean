import Verif.Model.Float
import Verif.Spec.Number
/-
Specification: the values of a floating point type, decimal numbers and their texts, and nearest values.
-/
namespace Thors.Spec
open Thors

/-- Distance of two numbers. -/
def dist (a b : Nat) : Nat := (a - b) + (b - a)

/-- `m * 2^E` is the representation of a number with `prec` significant bits: the mantissa has all of them unless the
exponent is the smallest. -/
def Canon (f : FKind) (m E : Nat) : Prop := m < 2 ^ f.prec ∧ (E = 0 ∨ 2 ^ (f.prec - 1) ≤ m)

/-- A value of the type. -/
def IsFlt (f : FKind) : Flt → Prop
  | .fin _ m E => Canon f m E ∧ E ≤ f.emax
  | _ => True

instance (f : FKind) (x : Flt) : Decidable (IsFlt f x) := by unfold IsFlt Canon; split <;> infer_instance

/-- The numerator of a decimal number, times `2^q`. -/
def decNum (f : FKind) (x : Decimal) : Nat := x.n * 10 ^ x.k.toNat * 2 ^ f.q
/-- The denominator of a decimal number. -/
def decDen (x : Decimal) : Nat := 10 ^ (-x.k).toNat

/-- No number with `prec` significant bits is nearer to the decimal number than `m * 2^E / 2^q` (everything
multiplied by `2^q` and the denominator of the decimal number). -/
def Nearest (f : FKind) (x : Decimal) (m E : Nat) : Prop :=
  Canon f m E ∧ ∀ m' E', m' < 2 ^ f.prec → dist (m * 2 ^ E * decDen x) (decNum f x) ≤ dist (m' * 2 ^ E' * decDen x) (decNum f x)

/-- Two decimal numbers are the same number. -/
def SameNumber (x y : Decimal) : Prop :=
  x.neg = y.neg ∧ x.n * 10 ^ x.k.toNat * 10 ^ (-y.k).toNat = y.n * 10 ^ y.k.toNat * 10 ^ (-x.k).toNat

/-- The sign of a number. -/
def SignText (neg : Bool) (t : Bytes) : Prop := t = if neg then [0x2D] else []

/-- The fraction of a number: nothing, or a point and digits; number of digits and their value. -/
def FracVal (t : Bytes) (len n : Nat) : Prop := (t = [] ∧ len = 0 ∧ n = 0) ∨ ∃ ds, t = 0x2E :: ds ∧ Dec ds n ∧ ds.length = len

/-- The exponent of a number: nothing, or `e` or `E`, an optional sign and digits. -/
def ExpoVal (t : Bytes) (e : Int) : Prop :=
  (t = [] ∧ e = 0) ∨ ∃ c s ds n, (c = 0x65 ∨ c = 0x45) ∧ Dec ds n ∧ t = c :: (s ++ ds) ∧
    ((s = [] ∧ e = n) ∨ (s = [0x2B] ∧ e = n) ∨ (s = [0x2D] ∧ e = -(n : Int)))

/-- The text of a JSON number (RFC 8259 section 6) and the number: sign, digits without a superfluous leading zero,
fraction, exponent. -/
def JsonNumber (t : Bytes) (x : Decimal) : Prop :=
  ∃ s ip fp ep i len fr e, SignText x.neg s ∧ Dec ip i ∧ ¬ leadingZero ip ∧ FracVal fp len fr ∧ ExpoVal ep e ∧
    t = s ++ (ip ++ (fp ++ ep)) ∧ x.n = i * 10 ^ len + fr ∧ x.k = e - len

/-- The decimal number is close to the floating point value: it has its sign and differs by at most half a millionth, or by at
most half of 1/100000 of the value (all numbers multiplied by `2^q` and the denominator of the decimal number). -/
def Close (f : FKind) : Flt → Decimal → Prop
  | .fin neg m E, y => y.neg = neg ∧ (2 * 10 ^ 6 * dist (m * 2 ^ E * decDen y) (decNum f y) ≤ 2 ^ f.q * decDen y ∨
      2 * 10 ^ 5 * dist (m * 2 ^ E * decDen y) (decNum f y) ≤ m * 2 ^ E * decDen y)
  | _, _ => False

/-- Finite values. -/
def finite : Flt → Prop
  | .fin _ _ _ => True
  | _ => False

/-- Values that six significant digits describe: zero, and what a decimal number `D * 10^(X-5)` with six digits `D` is read as, if
the number is not below the smallest normal value of the type. -/
def Six (f : FKind) (v : Flt) : Prop :=
  f ∈ [f32, f64, f80] ∧ ((∃ neg, v = .fin neg 0 0) ∨
    ∃ (neg : Bool) (D : Nat) (X : Int), 10 ^ 5 ≤ D ∧ D < 10 ^ 6 ∧ 2 ^ (f.prec - 1) * 10 ^ (5 - X).toNat ≤ D * 10 ^ (X - 5).toNat * 2 ^ f.q ∧
      Decimal.toFlt f ⟨neg, D, X - 5⟩ = some v)

/-- The 64 bits `b` are the IEEE 754 binary64 encoding of a value: one bit of sign, 11 bits of exponent, 52 bits of fraction.
Exponent 0: `fraction * 2^-1074`; exponent 2047: infinity, or NaN if the fraction is not 0; otherwise
`(2^52 + fraction) * 2^(exponent - 1 - 1074)`. -/
def Binary64 (b : Nat) (x : Flt) : Prop :=
  ∃ (s : Bool) (e fr : Nat), e < 2048 ∧ fr < 2 ^ 52 ∧ b = (if s then 2 ^ 63 else 0) + e * 2 ^ 52 + fr ∧
    x = if e = 0 then .fin s fr 0 else if e = 2047 then (if fr = 0 then .inf s else .nan s) else .fin s (2 ^ 52 + fr) (e - 1)

end Thors.Spec
