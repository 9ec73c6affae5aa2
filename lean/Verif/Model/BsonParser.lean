import Verif.Model.Parser
import Verif.Model.BsonPrinter
/-
Model of `/repo/src/Serialize/BsonParser.{h,cpp}` reading from a `std::string_view`.
-/
namespace Thors
open StrIn

/-- Unsigned value of little endian bytes. -/
def leNat : Bytes → Nat
  | [] => 0
  | b :: bs => b.toNat + 256 * leNat bs

/-- The value of a signed integer whose little endian representation is given. -/
def leInt (bs : Bytes) : Int :=
  if 2 ^ (8 * bs.length) ≤ 2 * leNat bs then (leNat bs : Int) - 2 ^ (8 * bs.length) else leNat bs

/-- `static_cast` of a number to an integer type: reduction modulo two to the width. -/
def castTo (k : IntKind) (v : Int) : Int :=
  let u := v % (2 ^ k.bits : Int)
  if k.signed ∧ (2 ^ k.bits : Int) ≤ 2 * u then u - 2 ^ k.bits else u

/-- BsonParser.h:103-108 `readLE<size, Int>` for an `Int` of `size` bytes. `read` is not checked and the
variable is not initialised: on a short read the value is indeterminate. -/
def readLE (n : Nat) (s : StrIn) : Res (Int × StrIn) := do
  let (got, _, s) ← s.read n
  if got.length < n then .ub else return (leInt got, s)

/-- BsonParser.h:110-119 `readBE<size, Int>` for an `Int` of `width` bytes: the variable starts as zero, the
bytes read (possibly fewer than `size`) go to its last `size` bytes, and then the representation is
reversed. -/
def readBE (width size : Nat) (s : StrIn) : Res (Int × StrIn) := do
  let (got, _, s) ← s.read size
  let mem := List.replicate (width - size) 0x00 ++ got ++ List.replicate (size - got.length) 0x00
  return (leInt mem.reverse, s)

/-- ParserInterface.h:204-206 `ignore(size)` with a size converted from `int`: a negative number moves the
position back (StringInput.h:82-86 adds in `std::size_t`; as in `StrIn.ignore` the sum does not exceed it
otherwise). -/
def StrIn.ignoreInt (s : StrIn) (i : Int) : StrIn :=
  let pos := if 0 ≤ i then s.pos + i.toNat else ((s.pos + i) % (2 ^ 64 : Int)).toNat
  { s with pos := pos, good := pos ≤ s.data.length }

/-- BsonParser.h:56-63, the data members (innermost container first). `dataLeft` is a vector of
`std::size_t` that is only added to, subtracted from and compared with 1: the model keeps integers and
compares modulo 2^64. `parserInfo` is only used by the constructor. -/
structure BsonP where
  inp : StrIn
  conts : List BCont
  left : List Int
  size : List Int
  next : Tok
  key : Bytes
  type : Byte
  skip : Bool
  deriving DecidableEq, Repr

namespace BsonP

/-- BsonParser.cpp:13-32, the constructors. -/
def ofBytes (info : BCont) (d : Bytes) : BsonP := ⟨StrIn.ofBytes d, [info], [], [], .DocStart, [], 0x00, false⟩

/-- `dataLeft.back() -= n`. -/
def use (n : Int) (s : BsonP) : Res BsonP :=
  match s.left with
  | [] => .ub
  | l :: ls => .ok { s with left := (l - n) :: ls }

/-- BsonParser.cpp:275-290 `isEndOfContainer(0)`: `some` token if it is the end. -/
def endToken (s : BsonP) : Res (Option Tok) :=
  match s.left with
  | [] => .ub
  | l :: _ =>
    if (l - 1) % (2 ^ 64 : Int) = 0 then
      match s.conts with
      | [] => .ub
      | .Map :: _ => .ok (some .MapEnd)
      | .Array :: _ => .ok (some .ArrayEnd)
      | .Value :: _ => .ok (some .DocEnd)
    else .ok none

/-- BsonParser.cpp:37-45, the beginning of `getNextToken`: look whether the value just read was the last. -/
def settle (s : BsonP) : Res BsonP :=
  if s.skip then do
    match ← s.endToken with
    | some t => return { s with skip := false, next := t }
    | none => return { s with skip := false, type := 0x00, next := .Key }
  else .ok s

/-- BsonParser.cpp:293-314 `readEndOfContainer`. -/
def readEnd (s : BsonP) : Res BsonP := do
  let (got, good, inp) ← s.inp.read 1
  if good = false then throwStd else
  let s ← { s with inp := inp }.use 1
  if got.headD 0xFF ≠ 0x00 then throwStd else return s

/-- BsonParser.cpp:317-329 `readKey`. When `read` copies nothing the old type stays. -/
def readKey (s : BsonP) : Res BsonP := do
  let (got, good, inp) ← s.inp.read 1
  let s := { s with inp := inp, type := got.headD s.type }
  if good = false then throwStd else
  let (key, good, inp) ← s.inp.readTo 0x00
  let s := { s with inp := inp, key := key }
  if good = false then throwStd else
  s.use (1 + key.length + 1)

/-- BsonParser.cpp:58-63 and 79-82: read a size and open a new level. -/
def openLevel (s : BsonP) : Res BsonP := do
  let (n, inp) ← readLE 4 s.inp
  return { s with inp := inp, size := n :: s.size, left := (n - 4) :: s.left }

/-- BsonParser.cpp:47-148, the switch of `getNextToken` except for the case `Key`. -/
def handOut (s : BsonP) : Res (Tok × BsonP) :=
  match s.next with
  | .DocStart =>
    match s.conts with
    | [] => .ub
    | .Map :: _ => .ok (.DocStart, { s with next := .MapStart })
    | .Array :: _ => .ok (.DocStart, { s with next := .ArrayStart })
    | .Value :: _ => do
      let s ← { s with next := .Key, conts := .Value :: s.conts }.openLevel
      return (.DocStart, s)
  | .DocEnd => do
    let s ← if s.conts.head? = some .Value then s.readEnd else .ok s
    return (.DocEnd, { s with next := .Error })
  | .MapStart | .ArrayStart => do
    let tok := s.next
    let s ← s.openLevel
    match s.left, s.conts with
    | l :: _, c :: _ =>
      if (l - 1) % (2 ^ 64 : Int) = 0 then return (tok, { s with next := if c = .Map then .MapEnd else .ArrayEnd })
      else return (tok, { s with next := .Key })
    | l :: _, [] => if (l - 1) % (2 ^ 64 : Int) = 0 then .ub else return (tok, { s with next := .Key })
    | [], _ => .ub
  | .MapEnd | .ArrayEnd => do
    let tok := s.next
    let s ← s.readEnd
    match s.conts, s.left, s.size with
    | [_], _ :: ls, _ :: zs => return (tok, { s with conts := [], left := ls, size := zs, next := .DocEnd })
    | _ :: c :: cs, _ :: l :: ls, z :: zs => do
      let s := { s with conts := c :: cs, left := (l - z) :: ls, size := zs }
      match ← s.endToken with
      | some t => return (tok, { s with next := t })
      | none => return (tok, { s with next := .Key })
    | _, _, _ => .ub
  | .Value => .ok (.Value, { s with skip := true })
  | _ => throwStd

/-- BsonParser.cpp:35-153 `getNextToken`. In an array or around a single value the key is not handed out:
the function calls itself once more (with `skipOverValue` false and a `nextToken` other than `Key`). -/
def getNextToken (s : BsonP) : Res (Tok × BsonP) := do
  let s ← s.settle
  if s.next = .Key then
    let s ← s.readKey
    match s.conts with
    | [] => .ub
    | c :: _ =>
      let s := if s.type = 0x03 then { s with conts := .Map :: s.conts, next := .MapStart }
        else if s.type = 0x04 then { s with conts := .Array :: s.conts, next := .ArrayStart }
        else { s with next := .Value }
      if c = .Map then return (.Key, s) else s.handOut
  else s.handOut

/-- BsonParser.cpp:421-424 `getKey`. -/
def getKey (s : BsonP) : Res (Bytes × BsonP) := .ok (s.key, s)

/-- BsonParser.h:192-197 `readInt`. -/
def readInt (n : Nat) (s : BsonP) : Res (Int × BsonP) := do
  let s ← s.use n
  let (v, inp) ← readLE n s.inp
  return (v, { s with inp := inp })

/-- BsonParser.h:214-220 `getIntValue` and 77-85: the stored number is `static_cast` to the wanted type. -/
def getInt (k : IntKind) (s : BsonP) : Res (Int × BsonP) :=
  if s.type = 0x10 then do
    let (v, s) ← s.readInt 4
    return (castTo k v, s)
  else if s.type = 0x12 then do
    let (v, s) ← s.readInt 8
    return (castTo k v, s)
  else throwStd

/-- BsonParser.h:199-212 `readFloat<double>`: the bytes are copied into an uninitialised `double`. Fewer than eight bytes
leave a part of it indeterminate. -/
def readDouble (s : BsonP) : Res (Flt × BsonP) := do
  let (got, good, inp) ← s.inp.read 8
  if good = false then throwStd else
  let s ← { s with inp := inp }.use 8
  if got.length < 8 then .ub else
  return (bitsDouble (leInt got % (2 ^ 64 : Int)).toNat, s)

/-- BsonParser.h:222-233 `getFloatValue` and 87-89: integers and `double`s are converted to the wanted type. -/
def getFlt (f : FKind) (s : BsonP) : Res (Flt × BsonP) :=
  if s.type = 0x10 then do
    let (v, s) ← s.readInt 4
    return (intFlt f v, s)
  else if s.type = 0x12 then do
    let (v, s) ← s.readInt 8
    return (intFlt f v, s)
  else if s.type = 0x01 then do
    let (x, s) ← s.readDouble
    return (castFlt f64 f x, s)
  else throwStd

/-- BsonParser.cpp:332-345 `readBool`: the byte is copied into an uninitialised `bool`. No byte, or a byte
other than 0 and 1, is undefined. -/
def readBool (s : BsonP) : Res (Bool × BsonP) := do
  let (got, good, inp) ← s.inp.read 1
  if good = false then throwStd else
  let s ← { s with inp := inp }.use 1
  match got with
  | [0x00] => return (false, s)
  | [0x01] => return (true, s)
  | _ => .ub

/-- BsonParser.h:91. -/
def getBool (s : BsonP) : Res (Bool × BsonP) := if s.type ≠ 0x08 then throwStd else s.readBool

/-- BsonParser.cpp:366-383 `readString`, given the old content of the destination: the new content. A size
that makes `resize` wrap throws `std::length_error` (before or after the `read`); for a negative size that
does not (only possible with a destination that is not empty), `read` writes outside of the string. A short
read leaves the zeros of `resize`. -/
def readString (dst : Bytes) (s : BsonP) : Res (Bytes × BsonP) := do
  let (n, inp) ← readLE 4 s.inp
  let s ← { s with inp := inp }.use 4
  if n < 0 then (if dst.length + n < 0 then throwStd else .ub) else
  let (got, good, inp) ← s.inp.read n.toNat
  if good = false then throwStd else
  let s ← { s with inp := inp }.use n
  if dst.length + n - 1 < 0 then throwStd else
  return ((dst ++ got ++ List.replicate (n.toNat - got.length) 0x00).take (dst.length + n - 1).toNat, s)

/-- BsonParser.h:93. -/
def getStr (s : BsonP) : Res (Bytes × BsonP) := if s.type ≠ 0x02 then throwStd else s.readString []

/-- BsonParser.h:95. -/
def isValueNull (s : BsonP) : Bool := s.type = 0x0A

/-- Move over `n` bytes of a value. -/
def ignoreBytes (n : Int) (s : BsonP) : Res BsonP := { s with inp := s.inp.ignoreInt n }.use n

/-- BsonParser.cpp:240-246 and 248-254: the size in front of a string or of binary data. `size + 4` and
`size + 5` are computed in `int`. -/
def ignoreSized (extra : Int) (s : BsonP) : Res BsonP := do
  let (n, inp) ← readLE 4 s.inp
  if n + 4 + extra > 2 ^ 31 - 1 then .ub else
  use (n + 4 + extra) { s with inp := inp.ignoreInt (n + extra) }

/-- BsonParser.cpp:207-272 `ignoreDataValue`. -/
def ignoreDataValue (s : BsonP) : Res BsonP :=
  if s.skip = false then .ok s
  else if s.type = 0x01 then s.ignoreBytes 8
  else if s.type = 0x13 then s.ignoreBytes 16
  else if s.type = 0x10 then s.ignoreBytes 4
  else if s.type = 0x12 then s.ignoreBytes 8
  else if s.type = 0x07 then s.ignoreBytes 12
  else if s.type = 0x08 then s.ignoreBytes 1
  else if s.type = 0x09 then s.ignoreBytes 8
  else if s.type = 0x11 then s.ignoreBytes 8
  else if s.type = 0x0A then .ok s
  else if s.type = 0x02 then s.ignoreSized 0
  else if s.type = 0x05 then s.ignoreSized 1
  else throwStd

/-- BsonParser.cpp:390-410 `readBinary`: the bytes behind the size and the subtype, which is not looked at. `resize` of a
negative size throws `std::length_error`. The destination is the static buffer of `getRawValue`, so a short read leaves what earlier calls
have put there: not modelled, `ub` here. -/
def readBinary (s : BsonP) : Res (Bytes × BsonP) := do
  let (n, inp) ← readLE 4 s.inp
  let s ← { s with inp := inp }.use 4
  let (_, good, inp) ← s.inp.read 1
  if good = false then throwStd else
  let s ← { s with inp := inp }.use 1
  if n < 0 then throwStd else
  let (got, good, inp) ← s.inp.read n.toNat
  if good = false then throwStd else
  let s ← { s with inp := inp }.use n
  if got.length < n.toNat then .ub else return (got, s)

/-- BsonParser.cpp:426-455 `getRawValue` (`std::to_string` of an integer is its decimal text, of a
`double` that of `printf("%f")`, [string.conversions]). -/
def getRaw (s : BsonP) : Res (Bytes × BsonP) :=
  if s.type = 0x10 then do
    let (v, s) ← s.readInt 4
    return (intText v, s)
  else if s.type = 0x12 then do
    let (v, s) ← s.readInt 8
    return (intText v, s)
  else if s.type = 0x08 then do
    let (b, s) ← s.readBool
    return (if b then b!"true" else b!"false", s)
  else if s.type = 0x0A then .ok (b!"null", s)
  else if s.type = 0x02 then do
    let (t, s) ← s.readString [0x22]
    return (t ++ [0x22], s)
  else if s.type = 0x01 then do
    let (x, s) ← s.readDouble
    return (fixed6 f64 x, s)
  else if s.type = 0x05 then s.readBinary
  else throwStd

/-- BsonParser.h:69-97, the overrides. -/
def ops : POps BsonP where
  next := getNextToken
  getKey := getKey
  getInt := getInt
  getFlt := getFlt
  getBool := getBool
  getStr := getStr
  isNull := isValueNull
  ignoreData := ignoreDataValue
  getRaw := getRaw

end BsonP
end Thors
