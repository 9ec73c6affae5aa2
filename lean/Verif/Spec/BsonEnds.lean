import Verif.Model.BsonStream
import Verif.Model.Importer
/-
Specification: the BSON reader on a `std::istream` with some value in the place of the indeterminate ones: variables that a short read did not
write, a `bool` whose byte is neither 0 nor 1, a sum that does not fit into an `int`. Everything else is as in `Model/BsonStream.lean`.
-/
namespace Thors.Spec
open Thors StrIn

/-- What a program sees there: anything, and it may be something else each time. -/
structure BIndet where
  int : Nat → IStr → Int
  bool : Bytes → IStr → Bool
  sum : Int → IStr → Int

namespace BJ
variable (j : BIndet)

/-- BsonParser.h:103-108 `readLE<size, Int>`. -/
def readLE (n : Nat) (i : IStr) : Int × IStr :=
  let (got, _, i) := i.read n
  if got.length < n then (j.int n i, i) else (leInt got, i)

/-- BsonParser.cpp:58-63 and 79-82. -/
def openLevel (s : BsonS) : BsonS :=
  let (n, inp) := readLE j 4 s.inp
  { s with inp := inp, size := n :: s.size, left := (n - 4) :: s.left }

/-- BsonParser.cpp:47-148, the switch of `getNextToken` except for the case `Key`. -/
def handOut (s : BsonS) : Res (Tok × BsonS) :=
  match s.next with
  | .DocStart =>
    match s.conts with
    | [] => .ub
    | .Map :: _ => .ok (.DocStart, { s with next := .MapStart })
    | .Array :: _ => .ok (.DocStart, { s with next := .ArrayStart })
    | .Value :: _ => .ok (.DocStart, openLevel j { s with next := .Key, conts := .Value :: s.conts })
  | .DocEnd => do
    let s ← if s.conts.head? = some .Value then s.readEnd else .ok s
    return (.DocEnd, { s with next := .Error })
  | .MapStart | .ArrayStart => do
    let tok := s.next
    let s := openLevel j s
    match s.left, s.conts with
    | l :: _, c :: _ =>
      if (l - 1) % (2 ^ 64 : Int) = 0 then return (tok, { s with next := if c = .Map then .MapEnd else .ArrayEnd })
      else return (tok, { s with next := .Key })
    | l :: _, [] => if (l - 1) % (2 ^ 64 : Int) = 0 then .ub else return (tok, { s with next := .Key })
    | [], _ => .ub
  | .MapEnd | .ArrayEnd => do
    let tok := s.next
    let s ← s.readEnd
    match s.conts, s.left, s.size with
    | [_], _ :: ls, _ :: zs => return (tok, { s with conts := [], left := ls, size := zs, next := .DocEnd })
    | _ :: c :: cs, _ :: l :: ls, z :: zs => do
      let s := { s with conts := c :: cs, left := (l - z) :: ls, size := zs }
      match ← s.endToken with
      | some t => return (tok, { s with next := t })
      | none => return (tok, { s with next := .Key })
    | _, _, _ => .ub
  | .Value => .ok (.Value, { s with skip := true })
  | _ => throwStd

/-- BsonParser.cpp:35-153 `getNextToken`. -/
def getNextToken (s : BsonS) : Res (Tok × BsonS) := do
  let s ← s.settle
  if s.next = .Key then
    let s ← s.readKey
    match s.conts with
    | [] => .ub
    | c :: _ =>
      let s := if s.type = 0x03 then { s with conts := .Map :: s.conts, next := .MapStart }
        else if s.type = 0x04 then { s with conts := .Array :: s.conts, next := .ArrayStart }
        else { s with next := .Value }
      if c = .Map then return (.Key, s) else handOut j s
  else handOut j s

/-- BsonParser.h:192-197 `readInt`. -/
def readInt (n : Nat) (s : BsonS) : Res (Int × BsonS) := do
  let s ← s.use n
  let (v, inp) := readLE j n s.inp
  return (v, { s with inp := inp })

/-- BsonParser.h:214-220 `getIntValue` and 77-85. -/
def getInt (k : IntKind) (s : BsonS) : Res (Int × BsonS) :=
  if s.type = 0x10 then do
    let (v, s) ← readInt j 4 s
    return (castTo k v, s)
  else if s.type = 0x12 then do
    let (v, s) ← readInt j 8 s
    return (castTo k v, s)
  else throwStd

/-- BsonParser.h:222-233 `getFloatValue` and 87-89. -/
def getFlt (f : FKind) (s : BsonS) : Res (Flt × BsonS) :=
  if s.type = 0x10 then do
    let (v, s) ← readInt j 4 s
    return (intFlt f v, s)
  else if s.type = 0x12 then do
    let (v, s) ← readInt j 8 s
    return (intFlt f v, s)
  else if s.type = 0x01 then do
    let (x, s) ← s.readDouble
    return (castFlt f64 f x, s)
  else throwStd

/-- BsonParser.cpp:332-345 `readBool` and BsonParser.h:91. -/
def getBool (s : BsonS) : Res (Bool × BsonS) :=
  if s.type ≠ 0x08 then throwStd else do
    let (got, good, inp) := s.inp.read 1
    if good = false then throwStd else
    let s ← { s with inp := inp }.use 1
    match got with
    | [0x00] => return (false, s)
    | [0x01] => return (true, s)
    | _ => return (j.bool got s.inp, s)

/-- BsonParser.cpp:366-383 `readString` into an empty string, and BsonParser.h:93. -/
def getStr (s : BsonS) : Res (Bytes × BsonS) :=
  if s.type ≠ 0x02 then throwStd else do
    let (n, inp) := readLE j 4 s.inp
    let s ← { s with inp := inp }.use 4
    if n < 0 then throwStd else
    let (got, good, inp) := s.inp.read n.toNat
    if good = false then throwStd else
    let s ← { s with inp := inp }.use n
    if n - 1 < 0 then throwStd else
    return ((got ++ List.replicate (n.toNat - got.length) 0x00).take (n - 1).toNat, s)

/-- BsonParser.cpp:240-246 and 248-254. -/
def ignoreSized (extra : Int) (s : BsonS) : Res BsonS := do
  let (n, inp) := readLE j 4 s.inp
  if n + 4 + extra > 2 ^ 31 - 1 then BsonS.use (j.sum (n + 4 + extra) inp) { s with inp := inp.ignoreInt (j.sum (n + extra) inp) }
  else BsonS.use (n + 4 + extra) { s with inp := inp.ignoreInt (n + extra) }

/-- BsonParser.cpp:207-272 `ignoreDataValue`. -/
def ignoreDataValue (s : BsonS) : Res BsonS :=
  if s.skip = false then .ok s
  else if s.type = 0x01 then s.ignoreBytes 8
  else if s.type = 0x13 then s.ignoreBytes 16
  else if s.type = 0x10 then s.ignoreBytes 4
  else if s.type = 0x12 then s.ignoreBytes 8
  else if s.type = 0x07 then s.ignoreBytes 12
  else if s.type = 0x08 then s.ignoreBytes 1
  else if s.type = 0x09 then s.ignoreBytes 8
  else if s.type = 0x11 then s.ignoreBytes 8
  else if s.type = 0x0A then .ok s
  else if s.type = 0x02 then ignoreSized j 0 s
  else if s.type = 0x05 then ignoreSized j 1 s
  else throwStd

/-- BsonParser.h:69-97, the overrides. -/
def ops : POps BsonS where
  next := getNextToken j
  getKey := BsonS.getKey
  getInt := getInt j
  getFlt := getFlt j
  getBool := getBool j
  getStr := getStr j
  isNull := BsonS.isValueNull
  ignoreData := ignoreDataValue j
  getRaw := BsonS.getRaw

end BJ

/-- `stream >> bsonImporter(value, config)` with that parser. -/
noncomputable def bsonStreamImportJ (j : BIndet) (env : Env) (cfg : Cfg) (ty : Ty) (old : Val) (i : IStr) : Res (Val × IStr) := do
  let (v, p) ← importValue (BJ.ops j) env cfg ty old (PI.init (BsonS.ofStream (bsonBase env ty) i))
  return (v, p.inner.inp)

/-- The same for a `std::string`: what a program sees in the place of the indeterminate values. -/
structure BStrIndet where
  int : Nat → StrIn → Int
  bool : Bytes → StrIn → Bool
  flt : Bytes → StrIn → Flt
  sum : Int → StrIn → Int

namespace BStrJ
variable (j : BStrIndet)

/-- BsonParser.h:103-108 `readLE<size, Int>`. -/
def readLE (n : Nat) (i : StrIn) : Res (Int × StrIn) := do
  let (got, _, i) ← i.read n
  if got.length < n then return (j.int n i, i) else return (leInt got, i)

/-- BsonParser.cpp:58-63 and 79-82. -/
def openLevel (s : BsonP) : Res BsonP := do
  let (n, inp) ← readLE j 4 s.inp
  return { s with inp := inp, size := n :: s.size, left := (n - 4) :: s.left }

/-- BsonParser.cpp:47-148, the switch of `getNextToken` except for the case `Key`. -/
def handOut (s : BsonP) : Res (Tok × BsonP) :=
  match s.next with
  | .DocStart =>
    match s.conts with
    | [] => .ub
    | .Map :: _ => .ok (.DocStart, { s with next := .MapStart })
    | .Array :: _ => .ok (.DocStart, { s with next := .ArrayStart })
    | .Value :: _ => do
      let s ← openLevel j { s with next := .Key, conts := .Value :: s.conts }
      return (.DocStart, s)
  | .DocEnd => do
    let s ← if s.conts.head? = some .Value then s.readEnd else .ok s
    return (.DocEnd, { s with next := .Error })
  | .MapStart | .ArrayStart => do
    let tok := s.next
    let s ← openLevel j s
    match s.left, s.conts with
    | l :: _, c :: _ =>
      if (l - 1) % (2 ^ 64 : Int) = 0 then return (tok, { s with next := if c = .Map then .MapEnd else .ArrayEnd })
      else return (tok, { s with next := .Key })
    | l :: _, [] => if (l - 1) % (2 ^ 64 : Int) = 0 then .ub else return (tok, { s with next := .Key })
    | [], _ => .ub
  | .MapEnd | .ArrayEnd => do
    let tok := s.next
    let s ← s.readEnd
    match s.conts, s.left, s.size with
    | [_], _ :: ls, _ :: zs => return (tok, { s with conts := [], left := ls, size := zs, next := .DocEnd })
    | _ :: c :: cs, _ :: l :: ls, z :: zs => do
      let s := { s with conts := c :: cs, left := (l - z) :: ls, size := zs }
      match ← s.endToken with
      | some t => return (tok, { s with next := t })
      | none => return (tok, { s with next := .Key })
    | _, _, _ => .ub
  | .Value => .ok (.Value, { s with skip := true })
  | _ => throwStd

/-- BsonParser.cpp:35-153 `getNextToken`. -/
def getNextToken (s : BsonP) : Res (Tok × BsonP) := do
  let s ← s.settle
  if s.next = .Key then
    let s ← s.readKey
    match s.conts with
    | [] => .ub
    | c :: _ =>
      let s := if s.type = 0x03 then { s with conts := .Map :: s.conts, next := .MapStart }
        else if s.type = 0x04 then { s with conts := .Array :: s.conts, next := .ArrayStart }
        else { s with next := .Value }
      if c = .Map then return (.Key, s) else handOut j s
  else handOut j s

/-- BsonParser.h:192-197 `readInt`. -/
def readInt (n : Nat) (s : BsonP) : Res (Int × BsonP) := do
  let s ← s.use n
  let (v, inp) ← readLE j n s.inp
  return (v, { s with inp := inp })

/-- BsonParser.h:214-220 `getIntValue` and 77-85. -/
def getInt (k : IntKind) (s : BsonP) : Res (Int × BsonP) :=
  if s.type = 0x10 then do
    let (v, s) ← readInt j 4 s
    return (castTo k v, s)
  else if s.type = 0x12 then do
    let (v, s) ← readInt j 8 s
    return (castTo k v, s)
  else throwStd

/-- BsonParser.h:199-212 `readFloat<double>`. -/
def readDouble (s : BsonP) : Res (Flt × BsonP) := do
  let (got, good, inp) ← s.inp.read 8
  if good = false then throwStd else
  let s ← { s with inp := inp }.use 8
  if got.length < 8 then return (j.flt got s.inp, s) else
  return (bitsDouble (leInt got % (2 ^ 64 : Int)).toNat, s)

/-- BsonParser.h:222-233 `getFloatValue` and 87-89. -/
def getFlt (f : FKind) (s : BsonP) : Res (Flt × BsonP) :=
  if s.type = 0x10 then do
    let (v, s) ← readInt j 4 s
    return (intFlt f v, s)
  else if s.type = 0x12 then do
    let (v, s) ← readInt j 8 s
    return (intFlt f v, s)
  else if s.type = 0x01 then do
    let (x, s) ← readDouble j s
    return (castFlt f64 f x, s)
  else throwStd

/-- BsonParser.cpp:332-345 `readBool` and BsonParser.h:91. -/
def getBool (s : BsonP) : Res (Bool × BsonP) :=
  if s.type ≠ 0x08 then throwStd else do
    let (got, good, inp) ← s.inp.read 1
    if good = false then throwStd else
    let s ← { s with inp := inp }.use 1
    match got with
    | [0x00] => return (false, s)
    | [0x01] => return (true, s)
    | _ => return (j.bool got s.inp, s)

/-- BsonParser.cpp:366-383 `readString` into an empty string, and BsonParser.h:93. -/
def getStr (s : BsonP) : Res (Bytes × BsonP) :=
  if s.type ≠ 0x02 then throwStd else do
    let (n, inp) ← readLE j 4 s.inp
    let s ← { s with inp := inp }.use 4
    if n < 0 then throwStd else
    let (got, good, inp) ← s.inp.read n.toNat
    if good = false then throwStd else
    let s ← { s with inp := inp }.use n
    if n - 1 < 0 then throwStd else
    return ((got ++ List.replicate (n.toNat - got.length) 0x00).take (n - 1).toNat, s)

/-- BsonParser.cpp:240-246 and 248-254. -/
def ignoreSized (extra : Int) (s : BsonP) : Res BsonP := do
  let (n, inp) ← readLE j 4 s.inp
  if n + 4 + extra > 2 ^ 31 - 1 then BsonP.use (j.sum (n + 4 + extra) inp) { s with inp := inp.ignoreInt (j.sum (n + extra) inp) }
  else BsonP.use (n + 4 + extra) { s with inp := inp.ignoreInt (n + extra) }

/-- BsonParser.cpp:207-272 `ignoreDataValue`. -/
def ignoreDataValue (s : BsonP) : Res BsonP :=
  if s.skip = false then .ok s
  else if s.type = 0x01 then s.ignoreBytes 8
  else if s.type = 0x13 then s.ignoreBytes 16
  else if s.type = 0x10 then s.ignoreBytes 4
  else if s.type = 0x12 then s.ignoreBytes 8
  else if s.type = 0x07 then s.ignoreBytes 12
  else if s.type = 0x08 then s.ignoreBytes 1
  else if s.type = 0x09 then s.ignoreBytes 8
  else if s.type = 0x11 then s.ignoreBytes 8
  else if s.type = 0x0A then .ok s
  else if s.type = 0x02 then ignoreSized j 0 s
  else if s.type = 0x05 then ignoreSized j 1 s
  else throwStd

/-- BsonParser.h:69-97, the overrides. -/
def ops : POps BsonP where
  next := getNextToken j
  getKey := BsonP.getKey
  getInt := getInt j
  getFlt := getFlt j
  getBool := getBool j
  getStr := getStr j
  isNull := BsonP.isValueNull
  ignoreData := ignoreDataValue j
  getRaw := BsonP.getRaw

end BStrJ

/-- `string >> bsonImporter(value, config)` with that parser. -/
noncomputable def bsonImportJ (j : BStrIndet) (env : Env) (cfg : Cfg) (ty : Ty) (old : Val) (t : Bytes) : Res Val := do
  let (v, _) ← importValue (BStrJ.ops j) env cfg ty old (PI.init (BsonP.ofBytes (bsonBase env ty) t))
  return v

end Thors.Spec
