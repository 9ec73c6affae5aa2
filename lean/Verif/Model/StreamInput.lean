import Verif.Model.StringInput
import Verif.Model.Float
/-
Model of a `std::istream` as the parsers use it: the functions `ParserInterface` calls on `std::istream*`
(`/repo/src/Serialize/ParserInterface.h:182-325`) and `ReadValue` on a stream (lines 24-92).

The functions of the standard library are modelled from the C++ standard ([istream.unformatted],
[istream.extractors], [facet.num.get.virtuals]); where the standard leaves a choice, from libstdc++. The state
`badbit` is not modelled: the buffer under the stream never fails. The stream has `skipws` set, no exception
mask and the "C" locale.
-/
namespace Thors
open StrIn

/-- A `std::istream`: what its buffer holds, the position in it, `eofbit`, `failbit`, and whether the buffer can tell its
position (`false`: a pipe, a socket, a terminal; `tellg()` is then -1). -/
structure IStr where
  data : Bytes
  pos : Nat
  eof : Bool
  fail : Bool
  seekable : Bool
  deriving DecidableEq, Repr

namespace IStr

/-- A fresh stream on some bytes. -/
def ofBytes (d : Bytes) (seekable : Bool := true) : IStr := ⟨d, 0, false, false, seekable⟩

/-- What is still to be read (specification helper, not code). -/
def rest (i : IStr) : Bytes := i.data.drop i.pos

/-- `good()`. -/
def good (i : IStr) : Bool := !i.eof && !i.fail

/-- `istream::get()`: the character as `unsigned char`, or `EOF`. A stream that is not good gets `failbit` from the
sentry; at the end both bits are set. -/
def get (i : IStr) : Int × IStr :=
  if i.good = false then (EOFv, { i with fail := true })
  else if i.pos < i.data.length then (((i.data.getD i.pos 0).toNat : Int), { i with pos := i.pos + 1 })
  else (EOFv, { i with eof := true, fail := true })

/-- `istream::peek()`: sets `eofbit` at the end. -/
def peek (i : IStr) : Int × IStr :=
  if i.good = false then (EOFv, { i with fail := true })
  else if i.pos < i.data.length then (((i.data.getD i.pos 0).toNat : Int), i)
  else (EOFv, { i with eof := true })

/-- `istream::unget()`: clears `eofbit`, then steps back if there is no `failbit`. (`sungetc` at position 0 fails and sets
`badbit`; here the stream then fails.) -/
def unget (i : IStr) : IStr :=
  if i.fail then { i with eof := false }
  else if i.pos = 0 then { i with eof := false, fail := true }
  else { i with eof := false, pos := i.pos - 1 }

/-- `istream::ignore(n)`: stops at the end, which sets `eofbit` only. -/
def ignore (i : IStr) (n : Nat) : IStr :=
  if i.good = false then { i with fail := true }
  else if i.pos + n ≤ i.data.length then { i with pos := i.pos + n }
  else { i with pos := i.data.length, eof := true }

/-- `istream::read(dst, n)`: the bytes stored, the boolean result and the new state. A short read sets both bits. -/
def read (i : IStr) (n : Nat) : Bytes × Bool × IStr :=
  if i.good = false then ([], false, { i with fail := true })
  else
    let got := (i.data.drop i.pos).take n
    if got.length = n then (got, true, { i with pos := i.pos + n })
    else (got, false, { i with pos := i.data.length, eof := true, fail := true })

/-- `std::getline(stream, dst, delim)`: the new content of `dst` (`none`: left alone), the boolean result and the new
state. Ending without a delimiter sets `eofbit`; extracting nothing sets `failbit`. -/
def getline (i : IStr) (delim : Byte) : Option Bytes × Bool × IStr :=
  if i.good = false then (none, false, { i with fail := true })
  else
    let n := upTo delim (i.data.drop i.pos)
    let got := (i.data.drop i.pos).take n
    if i.pos + n < i.data.length then (some got, true, { i with pos := i.pos + (n + 1) })
    else if n = 0 then (some [], false, { i with pos := i.data.length, eof := true, fail := true })
    else (some got, true, { i with pos := i.data.length, eof := true })

/-- `stream >> c` for a `char c`: skips white space. The character (`none`: `c` left alone) and the new state. -/
def readChar (i : IStr) : Option Byte × IStr :=
  if i.good = false then (none, { i with fail := true })
  else
    let p := i.pos + spaces (i.data.drop i.pos)
    if p < i.data.length then (some (i.data.getD p 0), { i with pos := p + 1 })
    else (none, { i with pos := i.data.length, eof := true, fail := true })

/-- `istream::tellg()`: the sentry sets `failbit` on a stream that is not good, and a failed stream answers -1. -/
def tellg (i : IStr) : Int × IStr :=
  if i.good = false then (-1, { i with fail := true })
  else if i.seekable = false then (-1, i)
  else ((i.pos : Int), i)

/-- `clear()` and `setstate(failbit)`. -/
def clear (i : IStr) : IStr := { i with eof := false, fail := false }
def setFail (i : IStr) : IStr := { i with fail := true }

/-- What `num_get::get` does to the text it reads: the number of characters consumed, and the value stored. -/
structure NumGet where
  len : Nat
  value : Nat
  deriving DecidableEq, Repr

/-- `std::num_get<char>::get` into an unsigned type of `bits` bits, base 10: an optional sign, the longest run of
digits. Without digits the value is 0, out of range it is the largest value; with a minus sign a value in range is
negated modulo `2^bits` (libstdc++, locale_facets.tcc `_M_extract_int`). The error state goes to a local variable that
nobody reads (ParserInterface.h:61-63). -/
def numGet (bits : Nat) (bs : Bytes) : NumGet :=
  let sign : Bool := bs.head? = some 0x2D || bs.head? = some 0x2B
  let digits := digitPrefix (if sign then bs.drop 1 else bs)
  let n := digitsVal digits
  { len := (if sign then 1 else 0) + digits.length,
    value := if digits = [] then 0 else if n ≥ 2 ^ bits then 2 ^ bits - 1
             else if bs.head? = some 0x2D then (2 ^ bits - n) % 2 ^ bits else n }

/-- ParserInterface.h:56-66 `readNumber` for unsigned types: success is a change of position. The iterators over the
stream read the buffer directly, without looking at the state. -/
def readUnsigned (i : IStr) (bits : Nat) : (Bool × Nat) × IStr :=
  let (before, i) := i.tellg
  let r := numGet bits (i.data.drop i.pos)
  let i := { i with pos := i.pos + r.len }
  let (after, i) := i.tellg
  ((before != after, r.value), i)

/-- Conversion of an integer to a signed type (modulo `2^bits`). -/
def wrapSigned (bits : Nat) (i : Int) : Int :=
  let r := i % (2 ^ bits : Int)
  if r < 2 ^ (bits - 1) then r else r - 2 ^ bits

/-- ParserInterface.h:56-78 `readNumber`, integral types: for the signed ones a minus sign is read first and the rest
through the unsigned type. -/
def readInt (i : IStr) (k : IntKind) : (Bool × Int) × IStr :=
  if k.signed then
    let (c, i) := i.peek
    let neg := c == 0x2D
    let i := if neg then i.get.2 else i
    let ((ok, tmp), i) := i.readUnsigned k.bits
    ((ok, wrapSigned k.bits (if neg then -(tmp : Int) else tmp)), i)
  else
    let ((ok, v), i) := i.readUnsigned k.bits
    ((ok, (v : Int)), i)

/-- ParserInterface.h:27-42 `checkZero` on a stream. -/
def checkZero (i : IStr) : Res IStr :=
  let (p, i) := i.peek
  if p = 0x30 then
    let i := i.get.2
    let (p, i) := i.peek
    if p ≥ 0x31 ∧ p ≤ 0x39 then throwStd else .ok i.unget
  else .ok i

/-- ParserInterface.h:43-49 `validateResult` for integral types, on a stream. -/
def validateResult (ok : Bool) (i : IStr) : Bool × IStr :=
  let (p, i) := i.peek
  let next := toChar p
  (ok && next != 0x2E && next != 0x65 && next != 0x45, i)

/-- ParserInterface.h:79-85 `ReadValue::operator()(std::istream*, T*)`, integral `T`. -/
def readIntValue (i : IStr) (k : IntKind) : Res ((Bool × Int) × IStr) := do
  let i ← i.checkZero
  let ((ok, v), i) := i.readInt k
  let (ok, i) := validateResult ok i
  return ((ok, v), i)

/-- The characters of a floating point number that `std::num_get<char>` takes behind the sign (libstdc++,
locale_facets.tcc `_M_extract_float`, "C" locale): digits, one point in front of the exponent, an exponent mark with an
optional sign behind a digit. Result: how many, and the text handed to `strtod` (the exponent mark is always `e`).
Simplified: zeros in front of the number are dropped by the code but for one, which does not change its value. -/
def extractFlt (dec sci mant : Bool) : Bytes → Nat × Bytes
  | [] => (0, [])
  | c :: cs =>
    if isDigit c then
      let r := extractFlt dec sci true cs
      (r.1 + 1, c :: r.2)
    else if c = 0x2E ∧ dec = false ∧ sci = false then
      let r := extractFlt true sci mant cs
      (r.1 + 1, c :: r.2)
    else if (c = 0x65 ∨ c = 0x45) ∧ sci = false ∧ mant = true then
      match cs with
      | [] => (1, [0x65])
      | s :: ds =>
        if s = 0x2B ∨ s = 0x2D then
          let r := extractFlt dec true mant ds
          (r.1 + 2, 0x65 :: s :: r.2)
        else
          let r := extractFlt dec true mant (s :: ds)
          (r.1 + 1, 0x65 :: r.2)
    else (0, [])

/-- The largest finite value of a type. -/
def _root_.Thors.maxFlt (f : FKind) (neg : Bool) : Flt := .fin neg (2 ^ f.prec - 1) f.emax

/-- `std::num_get<char>::get` into a floating point type: the number of characters consumed and the value stored. A text
that is not a number gives 0, a number that is too large the largest value (libstdc++ `__convert_to_v`). -/
def numGetFlt (f : FKind) (bs : Bytes) : Nat × Flt :=
  let sign : Bool := bs.head? = some 0x2D || bs.head? = some 0x2B
  let neg : Bool := bs.head? = some 0x2D
  let r := extractFlt false false false (if sign then bs.drop 1 else bs)
  ((if sign then 1 else 0) + r.1,
    match scanDecimal r.2 with
    | some (len, n, k) =>
      if len = r.2.length then
        match (Decimal.mk neg n k).toFltInf f with
        | .inf s => maxFlt f s
        | x => x
      else .fin false 0 0
    | none => .fin false 0 0)

/-- ParserInterface.h:56-66 `readNumber` for floating point types: success is a change of position. -/
def readFlt (i : IStr) (f : FKind) : (Bool × Flt) × IStr :=
  let (before, i) := i.tellg
  let r := numGetFlt f (i.data.drop i.pos)
  let i := { i with pos := i.pos + r.1 }
  let (after, i) := i.tellg
  ((before != after, r.2), i)

/-- ParserInterface.h:79-85 `ReadValue::operator()(std::istream*, T*)`, floating point `T`: what follows is not looked at
(50-55). -/
def readFltValue (i : IStr) (f : FKind) : Res ((Bool × Flt) × IStr) := do
  let i ← i.checkZero
  return i.readFlt f

end IStr
end Thors
