import Verif.Spec.Tree
import Verif.Spec.JsonString
import Verif.Spec.Number
import Verif.Spec.Range
import Verif.Spec.Float
/-
Specification: the JSON grammar of RFC 8259 as a relation between texts and document trees, and what the
scalars of JSON mean.
-/
namespace Thors.Spec
open Thors StrIn

/-- White space (RFC 8259 section 2). -/
def Ws (w : Bytes) : Prop := ∀ c ∈ w, c = 0x20 ∨ c = 0x09 ∨ c = 0x0A ∨ c = 0x0D

/-- A string in a document: its body as written and the bytes it denotes. -/
structure JStr where
  raw : Bytes
  dec : Bytes
  deriving DecidableEq, Repr

/-- Scalars of JSON. A number without fraction and exponent has an integer value; other numbers have
a decimal one. -/
inductive JScalar
  | null
  | bool (b : Bool)
  | int (text : Bytes) (i : Int)
  | frac (text : Bytes) (x : Decimal)
  | str (s : JStr)
  deriving DecidableEq, Repr

abbrev JTree := Tr JStr JScalar

/-- A non-empty run of digits. -/
def Digits (t : Bytes) : Prop := ∃ n, Dec t n

/-- The fraction part of a number: nothing, or a point and digits. -/
def Frac (t : Bytes) : Prop := t = [] ∨ ∃ ds, Digits ds ∧ t = 0x2E :: ds

/-- The exponent part of a number: nothing, or `e`/`E`, an optional sign and digits. -/
def Expo (t : Bytes) : Prop :=
  t = [] ∨ ∃ e sg ds, (e = 0x65 ∨ e = 0x45) ∧ (sg = [] ∨ sg = [0x2B] ∨ sg = [0x2D]) ∧ Digits ds ∧ t = e :: (sg ++ ds)

/-- Text of a scalar. `pr` is the meaning of surrogate pairs. -/
def ScalarText (pr : Nat → Nat → Bytes) : JScalar → Bytes → Prop
  | .null, t => t = b!"null"
  | .bool b, t => t = if b then b!"true" else b!"false"
  | .int text i, t => t = text ∧ IntLit t i ∧ ¬ litLeadingZero t
  | .frac text x, t => t = text ∧ (∃ a i f e, IntLit a i ∧ ¬ litLeadingZero a ∧ Frac f ∧ Expo e ∧ f ++ e ≠ [] ∧ t = a ++ (f ++ e)) ∧ JsonNumber t x
  | .str s, t => Body pr s.raw s.dec ∧ t = [0x22] ++ s.raw ++ [0x22]

/-- Items separated by commas. -/
def commas : List Bytes → Bytes
  | [] => []
  | [p] => p
  | p :: q :: ps => p ++ [0x2C] ++ commas (q :: ps)

/-- Text of a value (RFC 8259 sections 3-5). -/
def JText (pr : Nat → Nat → Bytes) : JTree → Bytes → Prop
  | .scalar x, t => ScalarText pr x t
  | .arr [], t => ∃ w, Ws w ∧ t = [0x5B] ++ w ++ [0x5D]
  | .arr (v :: vs), t => ∃ ps, elems (v :: vs) ps ∧ t = [0x5B] ++ commas ps ++ [0x5D]
  | .obj [], t => ∃ w, Ws w ∧ t = [0x7B] ++ w ++ [0x7D]
  | .obj (m :: ms), t => ∃ ps, members (m :: ms) ps ∧ t = [0x7B] ++ commas ps ++ [0x7D]
where
  /-- the texts of the elements, with the white space around them -/
  elems : List JTree → List Bytes → Prop
  | [], ps => ps = []
  | v :: vs, ps => ∃ w1 tv w2 ps', Ws w1 ∧ Ws w2 ∧ JText pr v tv ∧ elems vs ps' ∧ ps = (w1 ++ tv ++ w2) :: ps'
  /-- the texts of the members, with the white space around their parts -/
  members : List (JStr × JTree) → List Bytes → Prop
  | [], ps => ps = []
  | (k, v) :: ms, ps => ∃ w1 w2 w3 tv w4 ps', Ws w1 ∧ Ws w2 ∧ Ws w3 ∧ Ws w4 ∧ Body pr k.raw k.dec ∧ JText pr v tv ∧
      members ms ps' ∧ ps = (w1 ++ [0x22] ++ k.raw ++ [0x22] ++ w2 ++ [0x3A] ++ w3 ++ tv ++ w4) :: ps'

/-- A JSON document: a value with white space around it. -/
def JDoc (pr : Nat → Nat → Bytes) (v : JTree) (t : Bytes) : Prop :=
  ∃ w1 tv w2, Ws w1 ∧ Ws w2 ∧ JText pr v tv ∧ t = w1 ++ tv ++ w2

/-- The library can skip a string: its body does not end in a backslash (which can only be the second half
of the escape `\\`) and has no byte 0xFF. -/
def JStr.skips (s : JStr) : Bool := s.raw.getLast? ≠ some 0x5C && !s.raw.contains 0xFF

/-- The library can copy a string as it stands: it can skip it, and it is ASCII. -/
def JStr.copies (s : JStr) : Bool := s.skips && s.raw.all (· < 0x80)

/-- Reading a string gives the bytes it denotes; with `convertBackSlash` off, its text as written. -/
def JStr.val (conv : Bool) (s : JStr) : Bytes := if conv then s.dec else s.raw

/-- The number a scalar is, with its sign as written. -/
def JScalar.number : JScalar → Option Decimal
  | .int t i => some ⟨t.head? = some 0x2D, i.natAbs, 0⟩
  | .frac _ x => some x
  | _ => none

/-- What the scalars of JSON mean. An integer literal that does not fit the type asked for is `ub`
(property C09); a literal with a minus sign is refused by the unsigned types. A number outside of the range of a floating
point type is `ub` (property C62). -/
def jsem (conv : Bool) : ScalarSem JStr JScalar where
  isNull x := decide (x = .null)
  readInt k
    | .int t i => if k.signed = false ∧ t.head? = some 0x2D then throwStd else if InRange k i then .ok i else .ub
    | _ => throwStd
  readFlt f x :=
    match x.number with
    | some d => match d.toFlt f with
      | some v => .ok v
      | none => .ub
    | none => throwStd
  readBool
    | .bool b => .ok b
    | _ => throwStd
  readStr
    | .str s => .ok (s.val conv)
    | _ => throwStd
  raw
    | .null => some b!"null"
    | .bool b => some (if b then b!"true" else b!"false")
    | .int t _ => some t
    | .frac t _ => some t
    | .str s => if s.copies then some ([0x22] ++ s.raw ++ [0x22]) else none
  skips
    | .str s => s.skips
    | _ => true
  key k := k.val conv
  keySkips k := k.skips

end Thors.Spec
