import Verif.Model.Basic
/-
Specification: decimal integer literals and their values; RFC 8259 numbers.
-/
namespace Thors.Spec

/-- A decimal digit and its value. -/
inductive Digit : Byte → Nat → Prop
  | mk (d : Nat) (h : d < 10) : Digit (UInt8.ofNat (0x30 + d)) d

/-- A non-empty digit sequence and its value. -/
inductive Dec : Bytes → Nat → Prop
  | one {c : Byte} {d : Nat} (h : Digit c d) : Dec [c] d
  | snoc {t : Bytes} {n d : Nat} {c : Byte} (ht : Dec t n) (h : Digit c d) : Dec (t ++ [c]) (n * 10 + d)

/-- An integer literal (optional minus sign, digits) and its value. -/
inductive IntLit : Bytes → Int → Prop
  | pos {t : Bytes} {n : Nat} (h : Dec t n) : IntLit t n
  | neg {t : Bytes} {n : Nat} (h : Dec t n) : IntLit (0x2D :: t) (-n)

/-- A digit sequence with a superfluous leading zero. -/
def leadingZero : Bytes → Prop
  | 0x30 :: _ :: _ => True
  | _ => False

/-- An integer literal with a superfluous leading zero, which RFC 8259 section 6 forbids. -/
def litLeadingZero : Bytes → Prop
  | 0x2D :: t => leadingZero t
  | t => leadingZero t

/-- The text after a number does not continue it: it is empty or does not start with a digit, a point
or an exponent mark. Every legal delimiter (white space, comma, bracket, brace, end) qualifies. -/
def numberEnds : Bytes → Prop
  | [] => True
  | c :: _ => ¬ (0x30 ≤ c ∧ c ≤ 0x39) ∧ c ≠ 0x2E ∧ c ≠ 0x65 ∧ c ≠ 0x45

instance (t : Bytes) : Decidable (numberEnds t) := by
  unfold numberEnds; split <;> infer_instance

end Thors.Spec
