import Verif.Model.BsonParser
import Verif.Model.JsonOps
/-
Model of `/repo/src/Serialize/MongoUtility.{h,cpp}`, `/repo/src/Serialize/MongoUtilityObjectId.h` and of the
custom serialisers they are built on (`/repo/src/Serialize/CustomSerialization.{h,tpp}`), JSON and BSON. Not
here: `operator<<(std::ostream&, UTCDateTime)` and its counterpart, see MongoDate.lean.
-/
namespace Thors
open StrIn

/-- `std::int32_t`, `std::int64_t`, `std::uint32_t`. -/
def i32 : IntKind := ⟨32, true⟩
def i64 : IntKind := ⟨64, true⟩
def u32 : IntKind := ⟨32, false⟩

/-! ### Custom elements -/

/-- CustomSerialization.h:43-55 `readCustom`: the next token must be a value. -/
def customRead {σ α : Type} (o : POps σ) (body : σ → Res (α × σ)) (p : PI σ) : Res (α × PI σ) := do
  let (t, p) ← p.getToken o
  if t ≠ .Value then throwStd else
  let (a, s) ← body p.inner
  return (a, { p with inner := s })

/-- CustomSerialization.tpp:49-56, the BSON case of `readCustomOld`: what `readBson` consumed is taken off the
container. The type of the element (`byteMarker`) is passed on; none of the serialisers below looks at it. -/
def bsonCustomRead {α : Type} (rd : StrIn → Res (α × StrIn)) (s : BsonP) : Res (α × BsonP) := do
  let pos := s.inp.pos
  let (a, inp) ← rd s.inp
  let s ← BsonP.use ((inp.pos : Int) - pos) { s with inp := inp }
  return (a, s)

/-- CustomSerialization.tpp:26-31, the BSON case of `writeCustomOld`: the key with the type byte, then
`writeBson`. `size` is `getPrintSizeBson`. -/
def bsonCustomWrite (mark : Byte) (size : Nat) (body : Bytes) (s : BPrint.St) : Res (List Write × BPrint.St) := do
  let (k, s) ← BPrint.writeKey mark (some size) s
  return (k ++ [.chars body], s)

/-! ### ObjectID -/

/-- MongoUtilityObjectId.h:25-36, the fields: `std::int32_t`, `std::int64_t`, `std::int32_t`, and the cached
text. -/
structure ObjectID where
  timestamp : Int
  random : Int
  counter : Int
  str : Bytes
  deriving DecidableEq, Repr

/-- The text of a number printed with `std::hex`: lower case, no prefix. -/
def hexText (n : Nat) : Bytes :=
  if _h : n < 16 then [hexDigit n] else hexText (n / 16) ++ [hexDigit (n % 16)]
termination_by n

/-- `stream << std::hex << std::setfill('0') << std::setw(w) << v` of an integer with `bits` bits: negative
numbers are printed as their two's complement representation; `setw` is a minimum. -/
def setwHex (w bits : Nat) (v : Int) : Bytes :=
  let t := hexText (v % (2 ^ bits : Int)).toNat
  List.replicate (w - t.length) 0x30 ++ t

/-- `stream >> c` on an `std::istream` over these characters: white space is skipped; at the end the stream
fails and `c` keeps its value (`none`: indeterminate). -/
def extractChar (c : Option Byte) (s : Bytes) : Option Byte × Bytes :=
  match s.dropWhile isSpace with
  | [] => (c, [])
  | x :: xs => (some x, xs)

/-- MongoUtility.h:344, the value of a digit: anything else than `0`-`9` and `a`-`f` counts as a capital
letter. -/
def oidDigit (c : Byte) : Int :=
  if 0x30 ≤ c ∧ c ≤ 0x39 then c.toNat - 0x30
  else if 0x61 ≤ c ∧ c ≤ 0x66 then (c.toNat : Int) - 0x61 + 10
  else sext c - 0x41 + 10

/-- MongoUtility.h:339-345, the loop of `readNumberMaxLenFromStream` from turn `loop` on (`n` turns left). The
result is an `std::size_t`. -/
def readHexLoop (dash : Bool) : Nat → Nat → Option Byte → Bytes → Int → Res (Int × Bytes)
  | 0, _, _, s, r => .ok (r, s)
  | n + 1, loop, c, s, r =>
    let (c, s) := extractChar c s
    let (c, s) := if c = some 0x2D ∧ loop = 0 ∧ dash = true then extractChar c s else (c, s)
    match c with
    | none => .ub
    | some x => readHexLoop dash n (loop + 1) c s ((r * 16 + oidDigit x) % 2 ^ 64)

/-- MongoUtility.h:335-347 `readNumberMaxLenFromStream`; `char c` is not initialised. -/
def readNumberMaxLen (n : Nat) (dash : Bool) (s : Bytes) : Res (Int × Bytes) := readHexLoop dash n 0 none s 0

namespace ObjectID

/-- MongoUtilityObjectId.h:39-42 `getNextCounter` for a class counter `n`: the result and the new counter.
Overflow of the `int` is undefined. The remainder has the sign of `n`. -/
def nextCounter (n : Int) : Res (Int × Int) := if n < 2 ^ 31 - 1 then .ok (n.tmod 0xFFF, n + 1) else .ub

/-- MongoUtility.h:304-313 `operator<<(std::ostream&, ObjectID const&)`. -/
def text (o : ObjectID) : Bytes := setwHex 8 32 o.timestamp ++ setwHex 10 64 o.random ++ setwHex 6 32 o.counter

/-- MongoUtilityObjectId.h:43-51 `to_string`: computed once and kept. -/
def toString (o : ObjectID) : Bytes × ObjectID :=
  if o.str = [] then (o.text, { o with str := o.text }) else (o.str, o)

/-- MongoUtility.h:349-356 `operator>>(std::istream&, ObjectID&)` on a stream over these characters; the `std::size_t`
results are converted to the types of the members. `str` is not touched. -/
def readText (o : ObjectID) (s : Bytes) : Res (ObjectID × Bytes) := do
  let (t, s) ← readNumberMaxLen 8 false s
  let (r, s) ← readNumberMaxLen 10 true s
  let (c, s) ← readNumberMaxLen 6 true s
  return ({ o with timestamp := castTo i32 t, random := castTo i64 r, counter := castTo i32 c }, s)

/-- MongoUtility.cpp:20-25, the constructor from text. (Its members are not initialised; the reader sets all
of them.) -/
def ofText (s : Bytes) : Res ObjectID := do
  let (o, _) ← readText ⟨0, 0, 0, []⟩ s
  return o

/-- MongoUtility.h:285-292 `operator<<(BsonPrinter&, ObjectID const&)`. -/
def bson (o : ObjectID) : Bytes := beBytes 4 4 o.timestamp ++ beBytes 8 5 o.random ++ beBytes 4 3 o.counter

/-- MongoUtility.h:315-322 `operator>>(BsonParser&, ObjectID&)`. -/
def readBson (o : ObjectID) (s : StrIn) : Res (ObjectID × StrIn) := do
  let (t, s) ← readBE 4 4 s
  let (r, s) ← readBE 8 5 s
  let (c, s) ← readBE 4 3 s
  return ({ o with timestamp := t, random := r, counter := c }, s)

/-- MongoUtility.h:294-302 `operator<<(JsonPrinter&, ObjectID const&)`: the call on the printer. -/
def json (o : ObjectID) : Cmd := .addStr o.text

/-- MongoUtility.h:324-333 `operator>>(JsonParser&, ObjectID&)`. -/
def readJson (o : ObjectID) (p : JsonP) : Res (ObjectID × JsonP) := do
  let (v, p) ← p.getStr
  let (o, _) ← o.readText v
  return (o, p)

/-- MongoUtilityObjectId.h:54 `operator==`: the text is not compared. -/
def eq (a b : ObjectID) : Bool := a.timestamp = b.timestamp ∧ a.random = b.random ∧ a.counter = b.counter

/-- MongoUtilityObjectId.h:55 `operator<` of `std::tuple`. -/
def lt (a b : ObjectID) : Bool :=
  a.timestamp < b.timestamp ∨
    (a.timestamp = b.timestamp ∧ (a.random < b.random ∨ (a.random = b.random ∧ a.counter < b.counter)))

/-- MongoUtility.h:148-164 `ObjectIDSerializer`: element type 0x07, twelve bytes. -/
def write (o : ObjectID) (s : BPrint.St) : Res (List Write × BPrint.St) := bsonCustomWrite 0x07 12 o.bson s
def read (o : ObjectID) (s : BsonP) : Res (ObjectID × BsonP) := bsonCustomRead o.readBson s

end ObjectID

/-! ### UTCDateTime and BsonTimeStamp -/

namespace UTCDateTime

/-- MongoUtility.h:358-363, 381-386 and 165 `DataTimeSerializer`: the element (type 0x09, eight bytes). The value
is the member `datetime`. -/
def write (d : Int) (s : BPrint.St) : Res (List Write × BPrint.St) := bsonCustomWrite 0x09 8 (leBytes 8 d) s
def read (s : BsonP) : Res (Int × BsonP) := bsonCustomRead (readLE 8) s

/-- MongoUtility.h:365-370, 388-393: JSON. -/
def json (d : Int) : Cmd := .addInt i64 d
def readJson (p : JsonP) : Res (Int × JsonP) := p.getInt i64

end UTCDateTime

/-- MongoUtility.h:267-268, the fields (`std::uint32_t`). -/
structure BsonTimeStamp where
  increment : Int
  timestamp : Int
  deriving DecidableEq, Repr

/-- A hexadecimal digit as `std::num_get` accepts it. -/
def isHexDigit (c : Byte) : Bool := (0x30 ≤ c ∧ c ≤ 0x39) ∨ (0x61 ≤ c ∧ c ≤ 0x66) ∨ (0x41 ≤ c ∧ c ≤ 0x46)

/-- `stream >> std::hex >> v` for an `std::uint32_t` (from the contract of `std::num_get`): white space is skipped,
then the longest run of hex digits is converted. `none`: the stream fails. The result is the new value. Not
modelled, and `ub` here: a sign, or a `0x` prefix. -/
def extractHex (s : Bytes) : Res (Int × Option Bytes) :=
  match s.dropWhile isSpace with
  | [] => .ok (0, none)
  | c :: cs =>
    if c = 0x2B ∨ c = 0x2D ∨ (c = 0x30 ∧ (cs.head? = some 0x78 ∨ cs.head? = some 0x58)) then .ub
    else
      let ds := (c :: cs).takeWhile isHexDigit
      if ds = [] then .ok (0, none)
      else
        let n := ds.foldl (fun a d => a * 16 + oidDigit d) 0
        if n < 2 ^ 32 then .ok (n, some ((c :: cs).dropWhile isHexDigit)) else .ok (2 ^ 32 - 1, none)

namespace BsonTimeStamp

/-- MongoUtility.h:401-407, 430-436 and 166 `TimeStampSerializer`: the element (type 0x11, eight bytes).
`writeBE<4, std::int32_t>` converts to `int32_t` and back. -/
def bson (t : BsonTimeStamp) : Bytes := beBytes 4 4 (castTo i32 t.increment) ++ beBytes 4 4 (castTo i32 t.timestamp)
def readBson (s : StrIn) : Res (BsonTimeStamp × StrIn) := do
  let (i, s) ← readBE 4 4 s
  let (t, s) ← readBE 4 4 s
  return (⟨castTo u32 i, castTo u32 t⟩, s)
def write (t : BsonTimeStamp) (s : BPrint.St) : Res (List Write × BPrint.St) := bsonCustomWrite 0x11 8 t.bson s
def read (s : BsonP) : Res (BsonTimeStamp × BsonP) := bsonCustomRead readBson s

/-- MongoUtility.h:418-428 `operator<<(std::ostream&, BsonTimeStamp const&)`; the width holds for the first
number only. -/
def text (t : BsonTimeStamp) : Bytes := b!"\"" ++ setwHex 8 32 t.timestamp ++ b!"-" ++ setwHex 0 32 t.increment ++ b!"\""

/-- MongoUtility.h:449-454 `operator>>(std::istream&, BsonTimeStamp&)`. After a failure the rest is left alone. -/
def readText (old : BsonTimeStamp) (s : Bytes) : Res BsonTimeStamp := do
  let (c, s) := extractChar none s
  if c = none then return old else
  let (t, rest) ← extractHex s
  match rest with
  | none => return { old with timestamp := t }
  | some s =>
    let (c, s) := extractChar none s
    if c = none then return { old with timestamp := t } else
    let (i, _) ← extractHex s
    return ⟨i, t⟩

/-- MongoUtility.h:409-416, 438-447: JSON. -/
def json (t : BsonTimeStamp) : Cmd := .addStr t.text
def readJson (old : BsonTimeStamp) (p : JsonP) : Res (BsonTimeStamp × JsonP) := do
  let (v, p) ← p.getStr
  let t ← old.readText v
  return (t, p)

/-- MongoUtility.cpp:37-41 `asDateTime`: the product is computed in `unsigned int`. -/
def asDateTime (t : BsonTimeStamp) : Int := (t.timestamp * 1000) % 2 ^ 32

/-- MongoUtility.h:271 `operator==` of `std::tuple`. -/
def eq (a b : BsonTimeStamp) : Bool := a.increment = b.increment ∧ a.timestamp = b.timestamp

/-- MongoUtility.h:272 `operator<` of `std::tuple`: the increment is compared first. -/
def lt (a b : BsonTimeStamp) : Bool := a.increment < b.increment ∨ (a.increment = b.increment ∧ a.timestamp < b.timestamp)

end BsonTimeStamp

/-! ### Binary data, JavaScript, regular expressions -/

/-- `object.resize(n)` of a container of bytes. -/
def resizeBytes (b : Bytes) (n : Nat) : Bytes := b.take n ++ List.replicate (n - b.length) 0x00

/-- Reading `n` bytes over the front of a buffer of that size: a short read leaves the rest. -/
def readOver (b : Bytes) (n : Nat) (s : StrIn) : Res (Bytes × StrIn) := do
  let (got, _, s) ← s.read n
  return (got ++ b.drop got.length, s)

namespace BinaryData

/-- MongoUtility.h:168-182 `BinarySerializer::writeBson` with the default `encodeType`; the object is its bytes. -/
def bson (b : Bytes) : Bytes := leBytes 4 b.length ++ [0x08] ++ b
def size (b : Bytes) : Nat := 4 + 1 + b.length
def write (b : Bytes) (s : BPrint.St) : Res (List Write × BPrint.St) := bsonCustomWrite 0x05 (size b) (bson b) s

/-- MongoUtility.h:183-190 `readBson`. A negative size makes `resize` throw. -/
def readBson (old : Bytes) (s : StrIn) : Res (Bytes × StrIn) := do
  let (n, s) ← readLE 4 s
  if n < 0 then throwStd else
  let (_, _, s) ← s.read 1
  readOver (resizeBytes old n.toNat) n.toNat s
def read (old : Bytes) (s : BsonP) : Res (Bytes × BsonP) := bsonCustomRead (readBson old) s

end BinaryData

namespace Javascript

/-- MongoUtility.h:193-206 `JavascriptSerializer::writeBson`. -/
def bson (b : Bytes) : Bytes := leBytes 4 (b.length + 1 : Nat) ++ b ++ [0x00]
def size (b : Bytes) : Nat := 4 + b.length + 1
def write (b : Bytes) (s : BPrint.St) : Res (List Write × BPrint.St) := bsonCustomWrite 0x0D (size b) (bson b) s

/-- MongoUtility.h:207-213 `readBson`; `resize(size - 1)` throws for a size of 0. -/
def readBson (old : Bytes) (s : StrIn) : Res (Bytes × StrIn) := do
  let (n, s) ← readLE 4 s
  if n < 0 then throwStd else
  let (b, s) ← readOver (resizeBytes old n.toNat) n.toNat s
  if n = 0 then throwStd else return (resizeBytes b (n.toNat - 1), s)
def read (old : Bytes) (s : BsonP) : Res (Bytes × BsonP) := bsonCustomRead (readBson old) s

end Javascript

namespace RegEx

/-- MongoUtility.h:216-229 `RegExSerializer::writeBson`; the object is its pattern and its options. -/
def bson (r : Bytes × Bytes) : Bytes := r.1 ++ [0x00] ++ r.2 ++ [0x00]
def size (r : Bytes × Bytes) : Nat := r.1.length + 1 + r.2.length + 1
def write (r : Bytes × Bytes) (s : BPrint.St) : Res (List Write × BPrint.St) := bsonCustomWrite 0x0B (size r) (bson r) s

/-- MongoUtility.h:230-234 `readBson`. -/
def readBson (s : StrIn) : Res ((Bytes × Bytes) × StrIn) := do
  let (a, _, s) ← s.readTo 0x00
  let (b, _, s) ← s.readTo 0x00
  return ((a, b), s)
def read (s : BsonP) : Res ((Bytes × Bytes) × BsonP) := bsonCustomRead readBson s

end RegEx

end Thors
