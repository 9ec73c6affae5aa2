import Verif.Model.BsonParser
import Verif.Model.StreamInput
/-
Model of `/repo/src/Serialize/BsonParser.{h,cpp}` reading from a `std::istream`. The functions are those of
`BsonParser.lean`; what differs is what `read`, `readTo` and `ignore` do (`ParserInterface.h:183-204, 251-260`).
-/
namespace Thors
open StrIn

namespace IStr

/-- ParserInterface.h:251-260 `ignore(size)` on a stream, with a size converted from `int`: as a `std::streamsize` a
negative number stays negative, and `istream::ignore` then extracts nothing (its sentry sets `failbit` on a stream that is
not good). -/
def ignoreInt (i : IStr) (n : Int) : IStr :=
  if n < 0 then (if i.good = false then { i with fail := true } else i) else i.ignore n.toNat

/-- BsonParser.h:103-108 `readLE<size, Int>`: `read` is not checked and the variable is not initialised, so that a short
read gives an indeterminate value. -/
def readLE (n : Nat) (i : IStr) : Res (Int × IStr) :=
  let (got, _, i) := i.read n
  if got.length < n then .ub else .ok (leInt got, i)

end IStr

/-- BsonParser.h:56-63, the data members, with a `std::istream*` as the input. -/
structure BsonS where
  inp : IStr
  conts : List BCont
  left : List Int
  size : List Int
  next : Tok
  key : Bytes
  type : Byte
  skip : Bool
  deriving DecidableEq, Repr

namespace BsonS

/-- BsonParser.cpp:12-21, the constructor. -/
def ofStream (info : BCont) (i : IStr) : BsonS := ⟨i, [info], [], [], .DocStart, [], 0x00, false⟩

/-- `dataLeft.back() -= n`. -/
def use (n : Int) (s : BsonS) : Res BsonS :=
  match s.left with
  | [] => .ub
  | l :: ls => .ok { s with left := (l - n) :: ls }

/-- BsonParser.cpp:275-290 `isEndOfContainer(0)`: `some` token if it is the end. -/
def endToken (s : BsonS) : Res (Option Tok) :=
  match s.left with
  | [] => .ub
  | l :: _ =>
    if (l - 1) % (2 ^ 64 : Int) = 0 then
      match s.conts with
      | [] => .ub
      | .Map :: _ => .ok (some .MapEnd)
      | .Array :: _ => .ok (some .ArrayEnd)
      | .Value :: _ => .ok (some .DocEnd)
    else .ok none

/-- BsonParser.cpp:37-45, the beginning of `getNextToken`. -/
def settle (s : BsonS) : Res BsonS :=
  if s.skip then do
    match ← s.endToken with
    | some t => return { s with skip := false, next := t }
    | none => return { s with skip := false, type := 0x00, next := .Key }
  else .ok s

/-- BsonParser.cpp:293-314 `readEndOfContainer`. -/
def readEnd (s : BsonS) : Res BsonS := do
  let (got, good, inp) := s.inp.read 1
  if good = false then throwStd else
  let s ← { s with inp := inp }.use 1
  if got.headD 0xFF ≠ 0x00 then throwStd else return s

/-- BsonParser.cpp:317-329 `readKey`: `std::getline` also succeeds at the end of the data, without the delimiter, if there
was a character. -/
def readKey (s : BsonS) : Res BsonS := do
  let (got, good, inp) := s.inp.read 1
  let s := { s with inp := inp, type := got.headD s.type }
  if good = false then throwStd else
  let (key, good, inp) := s.inp.getline 0x00
  let s := { s with inp := inp, key := key.getD s.key }
  if good = false then throwStd else
  s.use (1 + s.key.length + 1)

/-- BsonParser.cpp:58-63 and 79-82: read a size and open a new level. -/
def openLevel (s : BsonS) : Res BsonS := do
  let (n, inp) ← s.inp.readLE 4
  return { s with inp := inp, size := n :: s.size, left := (n - 4) :: s.left }

/-- BsonParser.cpp:47-148, the switch of `getNextToken` except for the case `Key`. -/
def handOut (s : BsonS) : Res (Tok × BsonS) :=
  match s.next with
  | .DocStart =>
    match s.conts with
    | [] => .ub
    | .Map :: _ => .ok (.DocStart, { s with next := .MapStart })
    | .Array :: _ => .ok (.DocStart, { s with next := .ArrayStart })
    | .Value :: _ => do
      let s ← { s with next := .Key, conts := .Value :: s.conts }.openLevel
      return (.DocStart, s)
  | .DocEnd => do
    let s ← if s.conts.head? = some .Value then s.readEnd else .ok s
    return (.DocEnd, { s with next := .Error })
  | .MapStart | .ArrayStart => do
    let tok := s.next
    let s ← s.openLevel
    match s.left, s.conts with
    | l :: _, c :: _ =>
      if (l - 1) % (2 ^ 64 : Int) = 0 then return (tok, { s with next := if c = .Map then .MapEnd else .ArrayEnd })
      else return (tok, { s with next := .Key })
    | l :: _, [] => if (l - 1) % (2 ^ 64 : Int) = 0 then .ub else return (tok, { s with next := .Key })
    | [], _ => .ub
  | .MapEnd | .ArrayEnd => do
    let tok := s.next
    let s ← s.readEnd
    match s.conts, s.left, s.size with
    | [_], _ :: ls, _ :: zs => return (tok, { s with conts := [], left := ls, size := zs, next := .DocEnd })
    | _ :: c :: cs, _ :: l :: ls, z :: zs => do
      let s := { s with conts := c :: cs, left := (l - z) :: ls, size := zs }
      match ← s.endToken with
      | some t => return (tok, { s with next := t })
      | none => return (tok, { s with next := .Key })
    | _, _, _ => .ub
  | .Value => .ok (.Value, { s with skip := true })
  | _ => throwStd

/-- BsonParser.cpp:35-153 `getNextToken`. -/
def getNextToken (s : BsonS) : Res (Tok × BsonS) := do
  let s ← s.settle
  if s.next = .Key then
    let s ← s.readKey
    match s.conts with
    | [] => .ub
    | c :: _ =>
      let s := if s.type = 0x03 then { s with conts := .Map :: s.conts, next := .MapStart }
        else if s.type = 0x04 then { s with conts := .Array :: s.conts, next := .ArrayStart }
        else { s with next := .Value }
      if c = .Map then return (.Key, s) else s.handOut
  else s.handOut

/-- BsonParser.cpp:421-424 `getKey`. -/
def getKey (s : BsonS) : Res (Bytes × BsonS) := .ok (s.key, s)

/-- BsonParser.h:192-197 `readInt`. -/
def readInt (n : Nat) (s : BsonS) : Res (Int × BsonS) := do
  let s ← s.use n
  let (v, inp) ← s.inp.readLE n
  return (v, { s with inp := inp })

/-- BsonParser.h:214-220 `getIntValue` and 77-85. -/
def getInt (k : IntKind) (s : BsonS) : Res (Int × BsonS) :=
  if s.type = 0x10 then do
    let (v, s) ← s.readInt 4
    return (castTo k v, s)
  else if s.type = 0x12 then do
    let (v, s) ← s.readInt 8
    return (castTo k v, s)
  else throwStd

/-- BsonParser.h:199-212 `readFloat<double>`. -/
def readDouble (s : BsonS) : Res (Flt × BsonS) := do
  let (got, good, inp) := s.inp.read 8
  if good = false then throwStd else
  let s ← { s with inp := inp }.use 8
  if got.length < 8 then .ub else
  return (bitsDouble (leInt got % (2 ^ 64 : Int)).toNat, s)

/-- BsonParser.h:222-233 `getFloatValue` and 87-89. -/
def getFlt (f : FKind) (s : BsonS) : Res (Flt × BsonS) :=
  if s.type = 0x10 then do
    let (v, s) ← s.readInt 4
    return (intFlt f v, s)
  else if s.type = 0x12 then do
    let (v, s) ← s.readInt 8
    return (intFlt f v, s)
  else if s.type = 0x01 then do
    let (x, s) ← s.readDouble
    return (castFlt f64 f x, s)
  else throwStd

/-- BsonParser.cpp:332-345 `readBool`: a byte other than 0 and 1 in a `bool` is undefined. -/
def readBool (s : BsonS) : Res (Bool × BsonS) := do
  let (got, good, inp) := s.inp.read 1
  if good = false then throwStd else
  let s ← { s with inp := inp }.use 1
  match got with
  | [0x00] => return (false, s)
  | [0x01] => return (true, s)
  | _ => .ub

/-- BsonParser.h:91. -/
def getBool (s : BsonS) : Res (Bool × BsonS) := if s.type ≠ 0x08 then throwStd else s.readBool

/-- BsonParser.cpp:366-383 `readString`, given the old content of the destination: the new content. -/
def readString (dst : Bytes) (s : BsonS) : Res (Bytes × BsonS) := do
  let (n, inp) ← s.inp.readLE 4
  let s ← { s with inp := inp }.use 4
  if n < 0 then (if dst.length + n < 0 then throwStd else .ub) else
  let (got, good, inp) := s.inp.read n.toNat
  if good = false then throwStd else
  let s ← { s with inp := inp }.use n
  if dst.length + n - 1 < 0 then throwStd else
  return ((dst ++ got ++ List.replicate (n.toNat - got.length) 0x00).take (dst.length + n - 1).toNat, s)

/-- BsonParser.h:93. -/
def getStr (s : BsonS) : Res (Bytes × BsonS) := if s.type ≠ 0x02 then throwStd else s.readString []

/-- BsonParser.h:95. -/
def isValueNull (s : BsonS) : Bool := s.type = 0x0A

/-- Move over `n` bytes of a value. -/
def ignoreBytes (n : Int) (s : BsonS) : Res BsonS := { s with inp := s.inp.ignoreInt n }.use n

/-- BsonParser.cpp:240-246 and 248-254: the size in front of a string or of binary data. -/
def ignoreSized (extra : Int) (s : BsonS) : Res BsonS := do
  let (n, inp) ← s.inp.readLE 4
  if n + 4 + extra > 2 ^ 31 - 1 then .ub else
  use (n + 4 + extra) { s with inp := inp.ignoreInt (n + extra) }

/-- BsonParser.cpp:207-272 `ignoreDataValue`. -/
def ignoreDataValue (s : BsonS) : Res BsonS :=
  if s.skip = false then .ok s
  else if s.type = 0x01 then s.ignoreBytes 8
  else if s.type = 0x13 then s.ignoreBytes 16
  else if s.type = 0x10 then s.ignoreBytes 4
  else if s.type = 0x12 then s.ignoreBytes 8
  else if s.type = 0x07 then s.ignoreBytes 12
  else if s.type = 0x08 then s.ignoreBytes 1
  else if s.type = 0x09 then s.ignoreBytes 8
  else if s.type = 0x11 then s.ignoreBytes 8
  else if s.type = 0x0A then .ok s
  else if s.type = 0x02 then s.ignoreSized 0
  else if s.type = 0x05 then s.ignoreSized 1
  else throwStd

/-- BsonParser.cpp:390-410 `readBinary`. A short read of a stream fails. -/
def readBinary (s : BsonS) : Res (Bytes × BsonS) := do
  let (n, inp) ← s.inp.readLE 4
  let s ← { s with inp := inp }.use 4
  let (_, good, inp) := s.inp.read 1
  if good = false then throwStd else
  let s ← { s with inp := inp }.use 1
  if n < 0 then throwStd else
  let (got, good, inp) := s.inp.read n.toNat
  if good = false then throwStd else
  let s ← { s with inp := inp }.use n
  return (got, s)

/-- BsonParser.cpp:426-455 `getRawValue`. -/
def getRaw (s : BsonS) : Res (Bytes × BsonS) :=
  if s.type = 0x10 then do
    let (v, s) ← s.readInt 4
    return (intText v, s)
  else if s.type = 0x12 then do
    let (v, s) ← s.readInt 8
    return (intText v, s)
  else if s.type = 0x08 then do
    let (b, s) ← s.readBool
    return (if b then b!"true" else b!"false", s)
  else if s.type = 0x0A then .ok (b!"null", s)
  else if s.type = 0x02 then do
    let (t, s) ← s.readString [0x22]
    return (t ++ [0x22], s)
  else if s.type = 0x01 then do
    let (x, s) ← s.readDouble
    return (fixed6 f64 x, s)
  else if s.type = 0x05 then s.readBinary
  else throwStd

/-- BsonParser.h:69-97, the overrides. -/
def ops : POps BsonS where
  next := getNextToken
  getKey := getKey
  getInt := getInt
  getFlt := getFlt
  getBool := getBool
  getStr := getStr
  isNull := isValueNull
  ignoreData := ignoreDataValue
  getRaw := getRaw

end BsonS
end Thors
