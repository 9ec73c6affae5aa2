import Verif.Model.JsonToken
import Verif.Model.StringInput
/-
Floating point: the values of the IEEE 754 binary types, and the library functions the code converts them with.

The conversions themselves are not part of the repository. They are modelled by their contracts in the C++ standard
(correct rounding, ties to even), as executable functions on natural numbers.
-/
namespace Thors
open StrIn

/-- A binary floating point type. Its finite values are `± m * 2^E / 2^q` with `m < 2^prec` and `E ≤ emax`. -/
structure FKind where
  prec : Nat
  q : Nat
  emax : Nat
  deriving DecidableEq, Repr

/-- `float` (IEEE 754 binary32). -/
def f32 : FKind := ⟨24, 149, 253⟩
/-- `double` (IEEE 754 binary64). -/
def f64 : FKind := ⟨53, 1074, 2045⟩
/-- `long double` on x86-64 (the x87 extended format). -/
def f80 : FKind := ⟨64, 16445, 32765⟩

/-- A floating point value. The payload of a NaN is not modelled. -/
inductive Flt
  | fin (neg : Bool) (m : Nat) (E : Nat)
  | inf (neg : Bool)
  | nan (neg : Bool)
  deriving DecidableEq, Repr

/-- `n / d` rounded to the nearest integer, ties to even. -/
def rnd (n d : Nat) : Nat :=
  if 2 * (n % d) < d ∨ (2 * (n % d) = d ∧ n / d % 2 = 0) then n / d else n / d + 1

/-- The value of the type nearest to `n / d` (in units of `2^-q`), as mantissa and exponent. The exponent is the
smallest for which the quotient is below `2^prec`. -/
def nearest (f : FKind) (n d : Nat) : Nat × Nat :=
  let E := Nat.log2 (n / d) + 1 - f.prec
  let m := rnd n (d * 2 ^ E)
  if m = 2 ^ f.prec then (2 ^ (f.prec - 1), E + 1) else (m, E)

/-- A decimal number: `± n * 10^k`. -/
structure Decimal where
  neg : Bool
  n : Nat
  k : Int
  deriving DecidableEq, Repr

/-- The nearest value of the type in magnitude, without regard to the range. -/
def Decimal.round (f : FKind) (x : Decimal) : Nat × Nat :=
  nearest f (x.n * 10 ^ x.k.toNat * 2 ^ f.q) (10 ^ (-x.k).toNat)

/-- The decimal number as a value of the type: `none` if it is too large, or not zero and rounds to zero
(`std::errc::result_out_of_range`, [charconv.from.chars]; the treatment of tiny numbers is that of libstdc++ and
fast_float). -/
def Decimal.toFlt (f : FKind) (x : Decimal) : Option Flt :=
  let (m, E) := x.round f
  if E > f.emax ∨ (m = 0 ∧ x.n ≠ 0) then none else some (.fin x.neg m E)

/-- The decimal number as a value of the type, rounded; too large gives infinity (`std::strtod` and its relatives, C17
7.22.1.3). -/
def Decimal.toFltInf (f : FKind) (x : Decimal) : Flt :=
  let (m, E) := x.round f
  if E > f.emax then .inf x.neg else .fin x.neg m E

/-- Conversion of an integer to the type (`static_cast`). Integers of 64 bits are in the range of every type. -/
def intFlt (f : FKind) (i : Int) : Flt :=
  let (m, E) := nearest f (i.natAbs * 2 ^ f.q) 1
  .fin (i < 0) m E

/-- Conversion between floating point types (`static_cast`), rounding to the nearest value; too large gives infinity
(IEEE 754). -/
def castFlt (f g : FKind) : Flt → Flt
  | .fin neg m E =>
    let (m', E') := nearest g (m * 2 ^ E * 2 ^ g.q) (2 ^ f.q)
    if E' > g.emax then .inf neg else .fin neg m' E'
  | .inf neg => .inf neg
  | .nan neg => .nan neg

/-- The 64 bits of a `double` (IEEE 754 binary64), as a number: sign, 11 bits of exponent, 52 bits of fraction. A NaN is
a quiet one without payload. -/
def doubleBits : Flt → Nat
  | .fin neg m E => (if neg then 2 ^ 63 else 0) + (if m < 2 ^ 52 then m else (E + 1) * 2 ^ 52 + (m - 2 ^ 52))
  | .inf neg => (if neg then 2 ^ 63 else 0) + 2047 * 2 ^ 52
  | .nan neg => (if neg then 2 ^ 63 else 0) + 2047 * 2 ^ 52 + 2 ^ 51

/-- The `double` with the given 64 bits. -/
def bitsDouble (b : Nat) : Flt :=
  let neg : Bool := b / 2 ^ 63 % 2 = 1
  let e := b / 2 ^ 52 % 2048
  let m := b % 2 ^ 52
  if e = 2047 then (if m = 0 then .inf neg else .nan neg)
  else if e = 0 then .fin neg m 0
  else .fin neg (m + 2 ^ 52) (e - 1)

/-- A digit as a character. -/
def digit (d : Nat) : Byte := UInt8.ofNat (0x30 + d)

/-- The last `w` decimal digits of a number. -/
def pad : Nat → Nat → Bytes
  | 0, _ => []
  | w + 1, n => pad w (n / 10) ++ [digit (n % 10)]

/-- A minus sign or nothing. -/
def signText (neg : Bool) : Bytes := if neg then [0x2D] else []

/-- `std::to_chars(first, last, value, std::chars_format::fixed, 6)` as called in JsonPrinter.cpp:291, with room for
the result ([charconv.to.chars]: as `printf("%.6f")` in the C locale): six digits behind the point, correctly
rounded. -/
def fixed6 (f : FKind) : Flt → Bytes
  | .fin neg m E =>
    let N := rnd (m * 2 ^ E * 10 ^ 6) (2 ^ f.q)
    signText neg ++ natText (N / 10 ^ 6) ++ [0x2E] ++ pad 6 (N % 10 ^ 6)
  | .inf neg => signText neg ++ b!"inf"
  | .nan neg => signText neg ++ b!"nan"

/-- Without the zeros at the end. -/
def stripZeros (t : Bytes) : Bytes := (t.reverse.dropWhile (· = 0x30)).reverse

/-- A fraction without zeros at the end; nothing if it is zero. -/
def fracText (t : Bytes) : Bytes := if stripZeros t = [] then [] else 0x2E :: stripZeros t

/-- The decimal exponent of `n / d`, `n > 0`: `10^X ≤ n / d < 10^(X+1)`. -/
def expo10 (n d : Nat) : Int :=
  if d ≤ n then ((natText (n / d)).length : Int) - 1 else -((natText ((d - 1) / n)).length : Int)

/-- Six significant digits of `n / d`, `n > 0`, and the decimal exponent of the first. -/
def digits6 (n d : Nat) : Nat × Int :=
  let X := expo10 n d
  let D := rnd (n * 10 ^ (5 - X).toNat) (d * 10 ^ (X - 5).toNat)
  if D = 10 ^ 6 then (10 ^ 5, X + 1) else (D, X)

/-- The text of six significant digits, as `printf("%g")`: fixed notation for exponents from -4 to 5, otherwise
scientific; no zeros at the end of the fraction; the exponent has a sign and at least two digits. -/
def generalText (D : Nat) (X : Int) : Bytes :=
  if -4 ≤ X ∧ X < 6 then
    let w := (5 - X).toNat
    natText (D / 10 ^ w) ++ fracText (pad w (D % 10 ^ w))
  else
    natText (D / 10 ^ 5) ++ fracText (pad 5 (D % 10 ^ 5)) ++ [0x65] ++ (if X < 0 then [0x2D] else [0x2B]) ++
      (if X.natAbs < 10 then [0x30] else []) ++ natText X.natAbs

/-- `std::ostream << value` with the default flags and precision, for a value that is not zero
([facet.num.put.virtuals]: as `printf("%.6g")`). -/
def general6 (f : FKind) : Flt → Bytes
  | .fin neg m E => signText neg ++ (if m = 0 then b!"0" else generalText (digits6 (m * 2 ^ E) (2 ^ f.q)).1 (digits6 (m * 2 ^ E) (2 ^ f.q)).2)
  | .inf neg => signText neg ++ b!"inf"
  | .nan neg => signText neg ++ b!"nan"

/-- JsonPrinter.cpp:244-255, the text of a floating point value on a stream. -/
def streamText (f : FKind) (x : Flt) : Bytes :=
  match x with
  | .fin neg 0 _ => if neg then b!"-0.0" else b!"0.0"
  | x => general6 f x

/-- JsonPrinter.cpp:273-293, the characters of a floating point value that end up in a string: for a zero the pointer
moves by three, whatever its sign. -/
def stringText (f : FKind) (x : Flt) : Bytes :=
  match x with
  | .fin neg 0 _ => (if neg then b!"-0.0" else b!"0.0").take 3
  | x => fixed6 f x

/-- The fraction of a number: a point and digits. Number of characters and the digits. -/
def scanFrac : Bytes → Nat × Bytes
  | c :: cs => if c = 0x2E then (1 + (digitPrefix cs).length, digitPrefix cs) else (0, [])
  | [] => (0, [])

/-- The exponent of a number: `e`, an optional sign and at least one digit; otherwise nothing. Number of characters
and value. -/
def scanExpo : Bytes → Nat × Int
  | c :: cs =>
    if c = 0x65 ∨ c = 0x45 then
      match cs with
      | s :: ds =>
        if s = 0x2D then (if digitPrefix ds = [] then (0, 0) else (2 + (digitPrefix ds).length, -(digitsVal (digitPrefix ds) : Int)))
        else if s = 0x2B then (if digitPrefix ds = [] then (0, 0) else (2 + (digitPrefix ds).length, (digitsVal (digitPrefix ds) : Int)))
        else (if digitPrefix cs = [] then (0, 0) else (1 + (digitPrefix cs).length, (digitsVal (digitPrefix cs) : Int)))
      | [] => (0, 0)
    else (0, 0)
  | [] => (0, 0)

/-- The longest prefix that is an unsigned decimal number in the sense of `strtod` (digits with an optional point, at
least one digit, an optional exponent): its length, its digits as a number and the power of ten. -/
def scanDecimal (bs : Bytes) : Option (Nat × Nat × Int) :=
  let ds := digitPrefix bs
  let (lf, fs) := scanFrac (bs.drop ds.length)
  if ds = [] ∧ fs = [] then none
  else
    let (le, e) := scanExpo (bs.drop (ds.length + lf))
    some (ds.length + lf + le, digitsVal (ds ++ fs), e - fs.length)

/-- An ASCII letter as lower case. -/
def lower (c : Byte) : Byte := if 0x41 ≤ c ∧ c ≤ 0x5A then c + 0x20 else c

/-- The spellings of infinity and NaN: length and value. The form `nan(...)` is not modelled: it counts as `nan`. -/
def scanSpecial (neg : Bool) (bs : Bytes) : Option (Nat × Flt) :=
  if (bs.take 8).map lower = b!"infinity" then some (8, .inf neg)
  else if (bs.take 3).map lower = b!"inf" then some (3, .inf neg)
  else if (bs.take 3).map lower = b!"nan" then some (3, .nan neg)
  else none

/-- Result of `std::from_chars` on a floating point type. -/
inductive FromCharsF
  | invalid                        -- errc::invalid_argument
  | outOfRange (len : Nat)         -- errc::result_out_of_range, value unmodified
  | value (len : Nat) (x : Flt)
  deriving DecidableEq, Repr

/-- The number behind an optional sign, which takes up `l` characters. -/
def fromCharsU (f : FKind) (neg : Bool) (l : Nat) (bs : Bytes) : FromCharsF :=
  match scanDecimal bs with
  | some (len, n, k) =>
    match (Decimal.mk neg n k).toFlt f with
    | some x => .value (l + len) x
    | none => .outOfRange (l + len)
  | none =>
    match scanSpecial neg bs with
    | some (len, x) => .value (l + len) x
    | none => .invalid

/-- `std::from_chars(first, last, value)` for floating point types, general format ([charconv.from.chars]: the
pattern of `strtod` without a plus sign, without white space, without hexadecimal numbers). -/
def fromCharsF (f : FKind) : Bytes → FromCharsF
  | c :: cs => if c = 0x2D then fromCharsU f true 1 cs else fromCharsU f false 0 (c :: cs)
  | [] => .invalid

/-- StringInput.h:105-123 `readValue<T>` for floating point `T` (also 124-132 for `long double` where the library has
no conversion, which goes through `double`: not modelled). Like `readInt`. -/
def StrIn.readFlt (s : StrIn) (f : FKind) : Res ((Bool × Option Flt) × StrIn) :=
  if s.pos > s.data.length then .ub
  else
    match fromCharsF f (s.data.drop s.pos) with
    | .invalid => .ok ((false, none), s)
    | .outOfRange n => .ok ((n ≠ 0, none), { s with pos := s.pos + n, good := s.pos + n ≤ s.data.length })
    | .value n x => .ok ((n ≠ 0, some x), { s with pos := s.pos + n, good := s.pos + n ≤ s.data.length })

end Thors
