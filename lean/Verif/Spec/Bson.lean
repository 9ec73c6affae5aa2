import Verif.Spec.Doc
import Verif.Model.BsonParser
/-
Specification: the bytes of a BSON document (bsonspec.org, version 1.1), as a function of its tree. Lengths are
the lengths of the byte sequences themselves; nothing here computes a size in advance.
-/
namespace Thors.Spec
open Thors StrIn

/-- The integer `v` in two's complement, `w` bytes, least significant byte first. -/
def le (w : Nat) (v : Int) : Bytes := (List.range w).map fun j => UInt8.ofNat ((v / 256 ^ j) % 256).toNat

/-- The same, most significant byte first. -/
def be (w : Nat) (v : Int) : Bytes := (le w v).reverse

/-- The decimal digits of a number as ASCII characters. -/
def decimal (n : Nat) : Bytes := (Nat.toDigits 10 n).map fun c => UInt8.ofNat c.toNat

/-- Element types with a payload of fixed length that the library has no C++ built-in type for. -/
inductive Fixed
  | double | objectId | utcDateTime | timestamp | decimal128
  deriving DecidableEq, Repr

/-- The type byte. -/
def Fixed.code : Fixed → Byte
  | double => 0x01 | objectId => 0x07 | utcDateTime => 0x09 | timestamp => 0x11 | decimal128 => 0x13

/-- The length of the payload. -/
def Fixed.width : Fixed → Nat
  | double => 8 | objectId => 12 | utcDateTime => 8 | timestamp => 8 | decimal128 => 16

/-- The element types that are not documents. Not included: the deprecated ones, regular expressions,
JavaScript code, min key and max key. -/
inductive BScalar
  | null
  | bool (b : Bool)
  | int32 (v : Int)
  | int64 (v : Int)
  | str (s : Bytes)
  | bin (subtype : Byte) (s : Bytes)
  | fixed (f : Fixed) (payload : Bytes)
  deriving DecidableEq, Repr

namespace BScalar

/-- The type byte. -/
def code : BScalar → Byte
  | null => 0x0A
  | bool _ => 0x08
  | int32 _ => 0x10
  | int64 _ => 0x12
  | str _ => 0x02
  | bin _ _ => 0x05
  | fixed f _ => f.code

/-- The payload. -/
def payload : BScalar → Bytes
  | null => []
  | bool b => [if b then 0x01 else 0x00]
  | int32 v => le 4 v
  | int64 v => le 8 v
  | str s => le 4 (s.length + 1) ++ s ++ [0x00]
  | bin sub s => le 4 s.length ++ [sub] ++ s
  | fixed _ p => p

/-- The scalar can be stored: numbers fit, and payloads of fixed length have that length. -/
def valid : BScalar → Prop
  | int32 v => -2 ^ 31 ≤ v ∧ v < 2 ^ 31
  | int64 v => -2 ^ 63 ≤ v ∧ v < 2 ^ 63
  | fixed f p => p.length = f.width
  | _ => True

end BScalar

/-- A BSON document as a tree. The keys of arrays are not in the tree. -/
abbrev BTree := Tr Bytes BScalar

/-- `int32 e_list "\x00"`: the length counts itself and the terminator. -/
def framed (elements : Bytes) : Bytes := le 4 (4 + elements.length + 1 : Nat) ++ elements ++ [0x00]

/-- The type byte of an element. -/
def btype : BTree → Byte
  | .scalar x => x.code
  | .arr _ => 0x04
  | .obj _ => 0x03

/-- The payload of an element. -/
def bpayload : BTree → Bytes
  | .scalar x => x.payload
  | .arr ts => framed (elems 0 ts)
  | .obj ms => framed (members ms)
where
  /-- The elements of an array from index `i` on: their keys are the decimal indices. -/
  elems (i : Nat) : List BTree → Bytes
  | [] => []
  | t :: ts => (btype t :: decimal i ++ [0x00] ++ bpayload t) ++ elems (i + 1) ts
  /-- The elements of a document. -/
  members : List (Bytes × BTree) → Bytes
  | [] => []
  | (k, t) :: ms => (btype t :: k ++ [0x00] ++ bpayload t) ++ members ms

/-- The bytes of a whole document. A scalar cannot be a document by itself: it is wrapped in a document with
one element named "0". -/
def bdoc : BTree → Bytes
  | .scalar x => framed (x.code :: [0x30, 0x00] ++ x.payload)
  | t => bpayload t

/-- The tree can be stored as a document: scalars are valid, keys contain no NUL, and the length fits
in an int32. -/
structure Storable32 (t : BTree) : Prop where
  keys : AllKeys (fun k => (0x00 : Byte) ∉ k) t
  scalars : AllScalars BScalar.valid t
  length : (bdoc t).length < 2 ^ 31

/-- The natural number written least significant byte first. -/
def unle : Bytes → Nat
  | [] => 0
  | c :: cs => c.toNat + 256 * unle cs

/-- The value of the payload of a double. -/
def payloadDouble (p : Bytes) : Flt := bitsDouble (unle p)

/-- What the elements mean to the reader. An integer is converted to the wanted type, even where that changes
it (recorded as a disagreement with C31). A number is converted to the wanted floating point type. Everything can be skipped. -/
def bsem : ScalarSem Bytes BScalar where
  isNull x := x = .null
  readInt k x := match x with
    | .int32 v => .ok (castTo k v)
    | .int64 v => .ok (castTo k v)
    | _ => throwStd
  readFlt f x := match x with
    | .int32 v => .ok (intFlt f v)
    | .int64 v => .ok (intFlt f v)
    | .fixed .double p => .ok (castFlt f64 f (payloadDouble p))
    | _ => throwStd
  readBool x := match x with
    | .bool b => .ok b
    | _ => throwStd
  readStr x := match x with
    | .str s => .ok s
    | _ => throwStd
  raw x := match x with
    | .null => some b!"null"
    | .bool b => some (if b then b!"true" else b!"false")
    | .int32 v => some (intText v)
    | .int64 v => some (intText v)
    | .str s => some (0x22 :: s ++ [0x22])
    | .bin _ s => some s
    | .fixed .double p => some (fixed6 f64 (payloadDouble p))
    | _ => none
  skips _ := true
  key k := k
  keySkips _ := true

end Thors.Spec
