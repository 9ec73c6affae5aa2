import Verif.Model.Ser
import Verif.Model.Escape
import Verif.Model.StringOutput
/-
Model of `/repo/src/Serialize/BsonPrinter.{h,cpp}` and of the size computation `getPrintSize` (`Traits.h`,
`SerUtil.h`, `ThorsSerializerUtil.h`). Not here but in `BsonIds.lean`: an `idStore` (the `_id` member added to the
documents of a Mongo insert command, BsonPrinter.cpp:38-49) and projections (BsonPrinter.h:50-52); without
them `pushLevel` / `popLevel` have no effect.
-/
namespace Thors
open StrIn

/-- BsonUtil.h:15 `enum class BsonContainer`. -/
inductive BCont
  | Map | Array | Value
  deriving DecidableEq, Repr

/-- The first `n` bytes of the little endian two's complement representation of an integer: what
BsonPrinter.h:125-129 `writeLE<n>` writes (the platform is little endian, BsonParser.h:35-38). -/
def leBytes : Nat → Int → Bytes
  | 0, _ => []
  | n + 1, v => UInt8.ofNat (v % 256).toNat :: leBytes n (v / 256)

/-- BsonPrinter.h:131-139 `writeBE<size>` of a value in an integer type of `width` bytes: the representation
is reversed and its last `size` bytes are written. -/
def beBytes (width size : Nat) (v : Int) : Bytes := (leBytes width v).reverse.drop (width - size)

namespace BPrint

/-! ### Sizes -/

/-- BsonPrinter.cpp:53-72 `getSizeMap` (without `idStore`). Sizes are `std::size_t`; no overflow here. -/
def sizeMap (count : Nat) : Nat := 4 + count * (1 + 1) + 1

/-- BsonPrinter.cpp:92-100, the loop of `getSizeArray`. -/
def indexLoop (count total accounted nextLevel digits : Nat) (h : 0 < nextLevel) : Nat :=
  if nextLevel ≤ count then
    indexLoop count (total + (nextLevel - accounted) * digits) nextLevel (nextLevel * 10) (digits + 1) (by omega)
  else total + (count - accounted) * digits
termination_by count + 1 - nextLevel

/-- BsonPrinter.cpp:76-107 `getSizeArray`. -/
def sizeArray (count : Nat) : Nat := 4 + count * (1 + 1) + indexLoop count 0 0 10 1 (by omega) + 1

/-- BsonPrinter.h:56-63, 100-107 and 158-166: `short` and `int` are stored in four bytes, `long` and
`long long` in eight. -/
def intWidth (k : IntKind) : Nat := if k.bits = 64 then 8 else 4

/-- What the size computation looks at besides the traits: whether a class has the virtual member function
`getPolyMorphicPrintSize` (from `ThorsAnvil_PolyMorphicSerializer`, Traits.h:887-908), and whether it is a
`std::pair` (SerUtil.h:261-287). -/
structure SizeInfo where
  virt : Nat → Bool
  pair : Nat → Bool

section
variable (env : Env) (marker : Bytes) (info : SizeInfo)

mutual
/-- `Traits<T>::getPrintSize(printer, object, poly)` with the BSON `getSize...` functions:
 * values: ThorsSerializerUtil.h:120-130 with BsonPrinter.h:100-115. The size of a string is that of the
   string as it is, before `escapeString`.
 * sequence containers: SerUtil.h:105-119; tuples: SerUtil.h:887-906.
 * associative containers: SerUtil.h:88-102.
 * `std::optional`: SerUtil.h:989-994. Pointers: SerUtil.h:923-930, ThorsSerializerUtil.h:180-187.
 * classes: Traits.h:1076-1079, ThorsSerializerUtil.h:222-260: with the virtual function the class name
   counts exactly if `poly`, else exactly if the class has a type field name. Behind a polymorphic pointer
   the virtual function of the dynamic class is called (Traits.h:901-908).
 * `std::pair`: SerUtil.h:275-286, both members count always.
 * enumerations: Traits.h:792-796: a value without a name dereferences `end()`.
 * variants: SerUtil.h:996-1020, the flag is passed on. -/
def psize : Bool → Ty → Val → Res Nat
  | _, .int k, .int _ => .ok (intWidth k)
  | _, .flt _, .flt _ => .ok 8
  | _, .bool, .bool _ => .ok 1
  | _, .str, .str s => .ok (4 + s.length + 1)
  | _, .seq _ t, .list vs => do return sizeArray vs.length + (← psizeList t vs)
  | _, .arr _ t, .list vs => do return sizeArray vs.length + (← psizeList t vs)
  | _, .smap t, .dict kvs => do return sizeMap kvs.length + (← psizeDict t kvs)
  | _, .mmap t, .dict kvs => do return sizeMap kvs.length + (← psizeDict t kvs)
  | _, .umap t, .dict kvs => do return sizeMap kvs.length + (← psizeDict t kvs)
  | p, .opt t, .some v => psize p t v
  | _, .opt _, .none => .ok 0
  | _, .uptr _, .null => .ok 0
  | _, .uptr t, .ptr v => psize true t v
  | _, .pptr _, .null => .ok 0
  | _, .pptr _, .dyn c (.obj ps fs) =>
    match env.defs c with
    | .cls ⟨.mk dps ms f, name, _⟩ => do
      let (n, m) ← psizeOwn f (.obj ps fs) ms fs
      let (n', m') ← psizeParents dps ps
      return sizeMap (1 + n + n') + ((polyMarker env marker c).length + (4 + name.length + 1) + m + m')
    | _ => .ub
  | p, .named i, .obj ps fs =>
    match env.defs i with
    | .cls ⟨.mk dps ms f, name, field⟩ =>
      if info.pair i then do
        let m ← psizePair ms fs
        return sizeMap 2 + m
      else do
        let (n, m) ← psizeOwn f (.obj ps fs) ms fs
        let (n', m') ← psizeParents dps ps
        if (if info.virt i then p else field.isSome) then
          return sizeMap (1 + n + n') + ((polyMarker env marker i).length + (4 + name.length + 1) + m + m')
        else return sizeMap (n + n') + (m + m')
    | _ => .ub
  | _, .named i, .list vs =>
    match env.defs i with
    | .tuple ts => do return sizeArray ts.length + (← psizeTuple ts vs)
    | _ => .ub
  | _, .named i, .enum e =>
    match env.defs i with
    | .enum table =>
      match enumName table e with
      | some s => .ok (4 + s.length + 1)
      | none => .ub
    | _ => .ub
  | p, .named _, .alt c (.obj ps fs) =>
    match env.defs c with
    | .cls ⟨.mk dps ms f, name, field⟩ => do
      let (n, m) ← psizeOwn f (.obj ps fs) ms fs
      let (n', m') ← psizeParents dps ps
      if (if info.virt c then p else field.isSome) then
        return sizeMap (1 + n + n') + ((polyMarker env marker c).length + (4 + name.length + 1) + m + m')
      else return sizeMap (n + n') + (m + m')
    | _ => .ub
  | _, _, _ => .ub
termination_by structural _ _ v => v
/-- The elements of a sequence container, SerUtil.h:112-115. -/
def psizeList : Ty → List Val → Res Nat
  | _, [] => .ok 0
  | t, v :: vs => do
    let a ← psize false t v
    let b ← psizeList t vs
    return a + b
termination_by structural _ vs => vs
/-- The elements of a tuple, SerUtil.h:893-898. -/
def psizeTuple : List Ty → List Val → Res Nat
  | [], [] => .ok 0
  | t :: ts, v :: vs => do
    let a ← psize false t v
    let b ← psizeTuple ts vs
    return a + b
  | _, _ => .ub
termination_by structural _ vs => vs
/-- The elements of an associative container, SerUtil.h:95-99. -/
def psizeDict : Ty → List (Bytes × Val) → Res Nat
  | _, [] => .ok 0
  | t, (k, v) :: kvs => do
    let a ← psize false t v
    let b ← psizeDict t kvs
    return k.length + a + b
termination_by structural _ vs => vs
/-- Both members of a `std::pair`, SerUtil.h:279-283. -/
def psizePair : List Member → List Val → Res Nat
  | [], [] => .ok 0
  | m :: ms, v :: vs => do
    let a ← psize false m.ty v
    let b ← psizePair ms vs
    return m.name.length + a + b
  | _, _ => .ub
termination_by structural _ vs => vs
/-- Traits.h:1030-1062 `addSizeEachMember`: number of the own members that pass the filter, and the size of
their names and values. -/
def psizeOwn (f : Option (Val → Bytes → Bool)) (self : Val) : List Member → List Val → Res (Nat × Nat)
  | [], [] => .ok (0, 0)
  | m :: ms, v :: vs =>
    if keepMember f self m v then do
      let a ← psize false m.ty v
      let (n, b) ← psizeOwn f self ms vs
      return (1 + n, m.out.length + a + b)
    else psizeOwn f self ms vs
  | _, _ => .ub
termination_by structural _ vs => vs
/-- Traits.h:1064-1074 with ThorsSerializerUtil.h:65-81, 199-217: the counts are passed by reference from
parent to parent, so the last result is the total. -/
def psizeParents : List StructDef → List Val → Res (Nat × Nat)
  | [], [] => .ok (0, 0)
  | .mk dps ms f :: ds, .obj ps fs :: vs => do
    let (n, m) ← psizeOwn f (.obj ps fs) ms fs
    let (n', m') ← psizeParents dps ps
    let (n'', m'') ← psizeParents ds vs
    return (n + n' + n'', m + m' + m'')
  | _, _ => .ub
termination_by structural _ vs => vs
end
end

/-! ### The printer -/

/-- BsonPrinter.h:44-49, the data members: containers (innermost first), the array indices (innermost first)
and the current key. -/
structure St where
  conts : List BCont
  idx : List Nat
  key : Bytes
  deriving DecidableEq, Repr

/-- BsonPrinter.cpp:10-24, the constructors. -/
def init : St := ⟨[], [], []⟩

/-- BsonPrinter.cpp:124-156 `writeKey`. The size is `none` for `static_cast<std::size_t>(-1)`. -/
def writeKey (type : Byte) (size : Option Nat) (s : St) : Res (List Write × St) :=
  match s.conts with
  | .Array :: _ =>
    match s.idx with
    | i :: is => .ok ([.chars [type], .chars (natText i), .chars [0x00]], { s with idx := (i + 1) :: is })
    | [] => .ub
  | _ :: _ => .ok ([.chars [type], .chars (s.key ++ [0x00])], s)
  | [] =>
    match size with
    | none => .ok ([], s)
    | some n => .ok ([.chars (leBytes 4 (4 + 1 + 2 + n + 1 : Nat)), .chars [type], .chars [0x30, 0x00]], s)

/-- A key followed by the bytes of the value. -/
def element (type : Byte) (body : List Write) (s : St) : Res (List Write × St) := do
  let (k, s) ← writeKey type (some (bytesOf body).length) s
  return (k ++ body, s)

/-- The calls of the printer interface: BsonPrinter.cpp:111-121, 174-274, BsonPrinter.h:56-77, 158-166.
`back()` of an empty vector is undefined. Floating point values of all types are stored as `double`
(BsonPrinter.h:77-82, 194-200). The conversions `static_cast<std::int32_t>` of the sizes and of
unsigned integers keep the low bytes, which is all that is written. -/
def step : Cmd → St → Res (List Write × St)
  | .openMap n, s => do
    let (k, s) ← writeKey 0x03 none s
    return (k ++ [.chars (leBytes 4 n)], { s with conts := .Map :: s.conts })
  | .closeMap, s =>
    match s.conts with
    | [] => .ub
    | c :: cs => if c ≠ .Map then throwStd else .ok ([.chars [0x00]], { s with conts := cs })
  | .openArray n, s => do
    let (k, s) ← writeKey 0x04 none s
    return (k ++ [.chars (leBytes 4 n)], { s with conts := .Array :: s.conts, idx := 0 :: s.idx })
  | .closeArray, s =>
    match s.conts with
    | [] => .ub
    | c :: cs =>
      if c ≠ .Array then throwStd else
      match s.idx with
      | [] => .ub
      | _ :: is => .ok ([.chars [0x00]], { s with conts := cs, idx := is })
  | .addKey key, s =>
    match s.conts with
    | [] => .ub
    | c :: _ => if c ≠ .Map then throwStd else .ok ([], { s with key := key })
  | .addInt k i, s => element (if intWidth k = 8 then 0x12 else 0x10) [.chars (leBytes (intWidth k) i)] s
  | .addFlt f x, s => element 0x01 [.chars (leBytes 8 (doubleBits (castFlt f f64 x) : Nat))] s
  | .addBool b, s => element 0x08 [.chars [if b then 0x01 else 0x00]] s
  | .addStr t, s =>
    element 0x02 (.chars (leBytes 4 ((escapeString t).length + 1 : Nat)) :: ((escapeWrites t).map .chars ++ [.chars [0x00]])) s
  | .addNull, s => element 0x0A [] s

/-- A sequence of calls. -/
def run : List Cmd → St → Res (List Write × St)
  | [], s => .ok ([], s)
  | c :: cs, s => do
    let (a, s) ← step c s
    let (b, s) ← run cs s
    return (a ++ b, s)

/-- BsonPrinter.cpp:163-172 `closeDoc`. -/
def closeDoc (info : BCont) : List Write := if info = .Value then [.chars [0x00]] else []

end BPrint

/-- BsonThor.h:30-80 `BsonBaseTypeGetter<T>::value`: what kind of container the document of a type is.
`std::optional` has TraitType::Reference; enumerations and variants have the default. -/
def bsonBase (env : Env) : Ty → BCont
  | .int _ | .flt _ | .bool | .str => .Value
  | .seq _ _ | .arr _ _ => .Array
  | .smap _ | .mmap _ | .umap _ => .Map
  | .opt _ => .Array
  | .uptr t => bsonBase env t
  | .pptr _ => .Map
  | .named i =>
    match env.defs i with
    | .cls _ => .Map
    | .tuple _ => .Array
    | .enum _ => .Value
    | .variant _ => .Value

/-- BsonThor.h:67-79 `validate`: a null pointer at the top level is refused. -/
def bsonRefuses : Ty → Val → Bool
  | .uptr _, .null => true
  | .pptr _, .null => true
  | _, _ => false

/-- One pass of the printer over a value: Serialize.tpp:1303-1324 with Serialize.h:287-303. -/
def bsonPass (env : Env) (info : BPrint.SizeInfo) (marker : Bytes) (ty : Ty) (v : Val) : Res (List Write) := do
  let cmds ← ser env marker (fun t w p => BPrint.psize env marker info p t w) ty v
  let (ws, _) ← BPrint.run cmds BPrint.init
  return ws ++ BPrint.closeDoc (bsonBase env ty)

/-- `stream << bsonExporter(value)` (BsonThor.h:93-99, Exporter.h:40-80): what is written to a stream. -/
def bsonExport (env : Env) (info : BPrint.SizeInfo) (marker : Bytes) (ty : Ty) (v : Val) : Res Bytes := do
  if bsonRefuses ty v then throwStd else
  let ws ← bsonPass env info marker ty v
  return bytesOf ws

/-- `string << bsonExporter(value)`: two passes over a `StringOutput` (Serialize.tpp:1306-1317). The BSON
printer writes only characters (PrinterInterface.h:100-116). -/
def bsonExportString (env : Env) (info : BPrint.SizeInfo) (marker : Bytes) (ty : Ty) (v : Val) (old : Bytes) : Res Bytes := do
  if bsonRefuses ty v then throwStd else
  let s := (StrOut.ofString old true).preflightSize
  let ws ← bsonPass env info marker ty v
  let s ← s.putAll ws
  let s := s.reserveSize
  let s ← s.putAll ws
  let s ← s.finalizePrint
  return s.data

end Thors
