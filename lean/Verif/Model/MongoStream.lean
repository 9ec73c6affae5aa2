import Verif.Model.Mongo
/-
The format state of the stream an ObjectID or a time stamp is written to (`/repo/src/Serialize/MongoUtility.h`).
-/
namespace Thors

/-- Where the fill characters go: `std::left`, `std::internal`, or the default. -/
inductive Adjust
  | right
  | left
  | internal
  deriving DecidableEq, Repr

/-- The base a stream writes integers in. -/
inductive Base
  | dec
  | oct
  | hex
  deriving DecidableEq, Repr

/-- `std::ios_base::fmtflags`, as far as they matter for integers and texts. -/
structure Flags where
  base : Base := .dec
  showbase : Bool := false
  uppercase : Bool := false
  adjust : Adjust := .right
  deriving DecidableEq, Repr

/-- The format state of a `std::ostream`: flags, precision, width, fill character. -/
structure OFmt where
  flags : Flags := {}
  precision : Nat := 6
  width : Nat := 0
  fill : Byte := 0x20
  deriving DecidableEq, Repr

namespace OFmt

/-- A capital letter for a lower case hexadecimal digit or `x`. -/
def upper (c : Byte) : Byte := if 0x61 ≤ c ∧ c ≤ 0x7A then c - 0x20 else c

/-- `prefix` and `body` of a formatted item, padded to the width (from the standard, [facet.num.put.virtuals] stage 3 and
[ostream.inserters.character]: texts have no prefix); the width is 0 afterwards. -/
def pad (f : OFmt) (pre body : Bytes) : Bytes × OFmt :=
  let n := List.replicate (f.width - (pre ++ body).length) f.fill
  (match f.flags.adjust with
    | .right => n ++ pre ++ body
    | .left => pre ++ body ++ n
    | .internal => pre ++ n ++ body,
   { f with width := 0 })

/-- `stream << v` of an integer with `bits` bits to a stream with `std::hex` (from the standard: `%x` or `%X`, with `#` for
`std::showbase`, which gives no prefix for 0). -/
def putHex (f : OFmt) (bits : Nat) (v : Int) : Bytes × OFmt :=
  let n := (v % (2 ^ bits : Int)).toNat
  let pre : Bytes := if f.flags.showbase ∧ n ≠ 0 then [0x30, 0x78] else []
  if f.flags.uppercase then f.pad (pre.map upper) ((hexText n).map upper) else f.pad pre (hexText n)

/-- `stream << "text"`. An `internal` text is padded in front. -/
def putText (f : OFmt) (s : Bytes) : Bytes × OFmt := f.pad [] s

/-- MongoUtility.h:36-47, the destructor of `StreamFormatterNoChange` at the end of the expression: the flags and the precision are
what they were in `old`. The fill character and the width are not saved. -/
def restore (old f : OFmt) : OFmt := { f with flags := old.flags, precision := old.precision }

end OFmt

/-- MongoUtility.h:304-313 `stream << objectID` on a stream in the state `f`: what is written, and the new state. -/
def ObjectID.put (o : ObjectID) (f : OFmt) : Bytes × OFmt :=
  let g := { f with flags := { f.flags with base := .hex }, fill := 0x30 }
  let (a, g) := { g with width := 8 }.putHex 32 o.timestamp
  let (b, g) := { g with width := 10 }.putHex 64 o.random
  let (c, g) := { g with width := 6 }.putHex 32 o.counter
  (a ++ b ++ c, OFmt.restore f g)

/-- MongoUtility.h:418-428 `stream << timeStamp`. -/
def BsonTimeStamp.put (t : BsonTimeStamp) (f : OFmt) : Bytes × OFmt :=
  let (a, g) := f.putText [0x22]
  let g := { g with flags := { g.flags with base := .hex }, width := 8, fill := 0x30 }
  let (b, g) := g.putHex 32 t.timestamp
  let (c, g) := g.putText [0x2D]
  let (d, g) := g.putHex 32 t.increment
  let (e, g) := g.putText [0x22]
  (a ++ b ++ c ++ d ++ e, OFmt.restore f g)

end Thors
