import Verif.Model.BsonPrinter
import Verif.Model.Mongo
/-
Model of `/repo/src/Serialize/BsonPrinter.{h,cpp}` with what `BsonPrinter.lean` leaves out: an `idStore` (the `_id` member added to
the documents of a Mongo insert command) and projections. The size computation and the serialiser work on the state of the printer
here: both depend on the containers that are open.
-/
namespace Thors
open StrIn

namespace BIds

/-- BsonPrinter.cpp:38-49 `needToInsertId`: there is a store, and the open containers are an array in a map (innermost first here). -/
def needId (ids : Bool) (conts : List BCont) : Bool := ids && decide (conts = [.Array, .Map])

/-- BsonPrinter.cpp:52-72 `getSizeMap`. -/
def sizeMap (ids : Bool) (conts : List BCont) (count : Nat) : Nat := 4 + count * (1 + 1) + (if needId ids conts then 17 else 0) + 1

/-- BsonPrinter.h:51 `getSize`: in a projection every value is an `int`. -/
def getSize (proj : Bool) (expected : Nat) : Nat := if proj then 4 else expected

section
variable (env : Env) (marker : Bytes) (info : BPrint.SizeInfo) (ids proj : Bool)

mutual
/-- `Traits<T>::getPrintSize(printer, object, poly)` as `BPrint.psize`, with the containers that are open: `pushLevel` and `popLevel` (SerUtil.h:94, 100,
111, 116, 278, 284, 902, 904, Traits.h:1066, 1068) and `getSize` (BsonPrinter.h:99-115). An empty optional has no size
(SerUtil.h:989-994), a null pointer has that of a null (ThorsSerializerUtil.h:185). -/
def psize : List BCont → Bool → Ty → Val → Res Nat
  | _, _, .int k, .int _ => .ok (getSize proj (BPrint.intWidth k))
  | _, _, .flt _, .flt _ => .ok (getSize proj 8)
  | _, _, .bool, .bool _ => .ok (getSize proj 1)
  | _, _, .str, .str s => .ok (getSize proj (4 + s.length + 1))
  | lv, _, .seq _ t, .list vs => do return BPrint.sizeArray vs.length + (← psizeList (.Array :: lv) t vs)
  | lv, _, .arr _ t, .list vs => do return BPrint.sizeArray vs.length + (← psizeList (.Array :: lv) t vs)
  | lv, _, .smap t, .dict kvs => do return sizeMap ids lv kvs.length + (← psizeDict (.Map :: lv) t kvs)
  | lv, _, .mmap t, .dict kvs => do return sizeMap ids lv kvs.length + (← psizeDict (.Map :: lv) t kvs)
  | lv, _, .umap t, .dict kvs => do return sizeMap ids lv kvs.length + (← psizeDict (.Map :: lv) t kvs)
  | lv, p, .opt t, .some v => psize lv p t v
  | _, _, .opt _, .none => .ok 0
  | _, _, .uptr _, .null => .ok (getSize proj 0)
  | lv, _, .uptr t, .ptr v => psize lv true t v
  | _, _, .pptr _, .null => .ok (getSize proj 0)
  | lv, _, .pptr _, .dyn c (.obj ps fs) =>
    match env.defs c with
    | .cls ⟨.mk dps ms f, name, _⟩ => do
      let (n, m) ← psizeOwn (.Map :: lv) f (.obj ps fs) ms fs
      let (n', m') ← psizeParents (.Map :: lv) dps ps
      return sizeMap ids lv (1 + n + n') + ((polyMarker env marker c).length + getSize proj (4 + name.length + 1) + m + m')
    | _ => .ub
  | lv, p, .named i, .obj ps fs =>
    match env.defs i with
    | .cls ⟨.mk dps ms f, name, field⟩ =>
      if info.pair i then do
        let m ← psizePair (.Map :: lv) ms fs
        return sizeMap ids lv 2 + m
      else do
        let (n, m) ← psizeOwn (.Map :: lv) f (.obj ps fs) ms fs
        let (n', m') ← psizeParents (.Map :: lv) dps ps
        if (if info.virt i then p else field.isSome) then
          return sizeMap ids lv (1 + n + n') + ((polyMarker env marker i).length + getSize proj (4 + name.length + 1) + m + m')
        else return sizeMap ids lv (n + n') + (m + m')
    | _ => .ub
  | lv, _, .named i, .list vs =>
    match env.defs i with
    | .tuple ts => do return BPrint.sizeArray ts.length + (← psizeTuple (.Array :: lv) ts vs)
    | _ => .ub
  | _, _, .named i, .enum e =>
    match env.defs i with
    | .enum table =>
      match enumName table e with
      | some s => .ok (getSize proj (4 + s.length + 1))
      | none => .ub
    | _ => .ub
  | lv, p, .named _, .alt c (.obj ps fs) =>
    match env.defs c with
    | .cls ⟨.mk dps ms f, name, field⟩ => do
      let (n, m) ← psizeOwn (.Map :: lv) f (.obj ps fs) ms fs
      let (n', m') ← psizeParents (.Map :: lv) dps ps
      if (if info.virt c then p else field.isSome) then
        return sizeMap ids lv (1 + n + n') + ((polyMarker env marker c).length + getSize proj (4 + name.length + 1) + m + m')
      else return sizeMap ids lv (n + n') + (m + m')
    | _ => .ub
  | _, _, _, _ => .ub
termination_by structural _ _ _ v => v
/-- The elements of a sequence container, SerUtil.h:112-115. -/
def psizeList : List BCont → Ty → List Val → Res Nat
  | _, _, [] => .ok 0
  | lv, t, v :: vs => do
    let a ← psize lv false t v
    let b ← psizeList lv t vs
    return a + b
termination_by structural _ _ vs => vs
/-- The elements of a tuple, SerUtil.h:893-898. -/
def psizeTuple : List BCont → List Ty → List Val → Res Nat
  | _, [], [] => .ok 0
  | lv, t :: ts, v :: vs => do
    let a ← psize lv false t v
    let b ← psizeTuple lv ts vs
    return a + b
  | _, _, _ => .ub
termination_by structural _ _ vs => vs
/-- The elements of an associative container, SerUtil.h:95-99. -/
def psizeDict : List BCont → Ty → List (Bytes × Val) → Res Nat
  | _, _, [] => .ok 0
  | lv, t, (k, v) :: kvs => do
    let a ← psize lv false t v
    let b ← psizeDict lv t kvs
    return k.length + a + b
termination_by structural _ _ vs => vs
/-- Both members of a `std::pair`, SerUtil.h:279-283. -/
def psizePair : List BCont → List Member → List Val → Res Nat
  | _, [], [] => .ok 0
  | lv, m :: ms, v :: vs => do
    let a ← psize lv false m.ty v
    let b ← psizePair lv ms vs
    return m.name.length + a + b
  | _, _, _ => .ub
termination_by structural _ _ vs => vs
/-- Traits.h:1030-1062 `addSizeEachMember`: number of the own members that pass the filter, and the size of
their names and values. -/
def psizeOwn (lv : List BCont) (f : Option (Val → Bytes → Bool)) (self : Val) : List Member → List Val → Res (Nat × Nat)
  | [], [] => .ok (0, 0)
  | m :: ms, v :: vs =>
    if keepMember f self m v then do
      let a ← psize lv false m.ty v
      let (n, b) ← psizeOwn lv f self ms vs
      return (1 + n, m.out.length + a + b)
    else psizeOwn lv f self ms vs
  | _, _ => .ub
termination_by structural _ vs => vs
/-- Traits.h:1064-1074 with ThorsSerializerUtil.h:65-81, 199-217: each class of the hierarchy pushes and pops the level itself. -/
def psizeParents : List BCont → List StructDef → List Val → Res (Nat × Nat)
  | _, [], [] => .ok (0, 0)
  | lv, .mk dps ms f :: ds, .obj ps fs :: vs => do
    let (n, m) ← psizeOwn lv f (.obj ps fs) ms fs
    let (n', m') ← psizeParents lv dps ps
    let (n'', m'') ← psizeParents lv ds vs
    return (n + n' + n'', m + m' + m'')
  | _, _, _ => .ub
termination_by structural _ _ vs => vs
end
end

/-! ### The printer -/

/-- BsonPrinter.h:44-50: the members of `BPrint.St`, how many ObjectIDs this printer made, and the vector `idStore` refers to, if any. -/
structure St where
  st : BPrint.St
  made : Nat
  store : Option (List ObjectID)
  deriving DecidableEq, Repr

/-- BsonPrinter.cpp:10-24, the constructors. -/
def init (store : Option (List ObjectID)) : St := ⟨BPrint.init, 0, store⟩

section
variable (fresh : Nat → ObjectID) (proj : Bool)

/-- The calls that `BPrint.step` has already. -/
def lift (r : BPrint.St → Res (List Write × BPrint.St)) (s : St) : Res (List Write × St) := do
  let (ws, st) ← r s.st
  return (ws, { s with st := st })

/-- BsonPrinter.cpp:174-191 `openMap`. `fresh` is the sequence of ObjectIDs that `emplace_back()` makes (MongoUtilityObjectId.h:52; what the
clock, `std::rand()` and the counter give). -/
def openMap (n : Nat) (s : St) : Res (List Write × St) := do
  let (k, st) ← BPrint.writeKey 0x03 none s.st
  let shouldAddID := needId s.store.isSome st.conts
  let st := { st with conts := .Map :: st.conts }
  if shouldAddID then do
    let st := { st with key := b!"_id" }
    let (k2, st) ← BPrint.writeKey 0x07 (some 12) st
    return (k ++ [.chars (leBytes 4 n)] ++ k2 ++ [.chars (fresh s.made).bson],
      ⟨st, s.made + 1, s.store.map (· ++ [fresh s.made])⟩)
  else return (k ++ [.chars (leBytes 4 n)], { s with st := st })

/-- The calls of the printer interface. BsonPrinter.h:52, 66-90: in a projection every value is written as the `int` 1. -/
def step : Cmd → St → Res (List Write × St)
  | .openMap n, s => openMap fresh n s
  | .closeMap, s => lift (BPrint.step .closeMap) s
  | .openArray n, s => lift (BPrint.step (.openArray n)) s
  | .closeArray, s => lift (BPrint.step .closeArray) s
  | .addKey k, s => lift (BPrint.step (.addKey k)) s
  | c, s => lift (if proj then BPrint.step (.addInt ⟨32, true⟩ 1) else BPrint.step c) s

/-- Serialize.tpp:906-935, 1184-1212: a block. The size is computed, the container opened, the members printed, the container closed. -/
def block (size : Res Nat) (start : Nat → Cmd) (stop : Cmd) (body : St → Res (List Write × St)) (s : St) : Res (List Write × St) := do
  let n ← size
  let (a, s) ← step fresh proj (start n) s
  let (b, s) ← body s
  let (c, s) ← step fresh proj stop s
  return (a ++ (b ++ c), s)

/-- One after the other. -/
def andThen (a b : St → Res (List Write × St)) (s : St) : Res (List Write × St) := do
  let (x, s) ← a s
  let (y, s) ← b s
  return (x ++ y, s)

end

section
variable (env : Env) (marker : Bytes) (info : BPrint.SizeInfo) (fresh : Nat → ObjectID) (proj : Bool)

/-- The marker and the name of a class (Serialize.tpp:1040-1048). -/
def className (c : Nat) (name : Bytes) : St → Res (List Write × St) :=
  andThen (step fresh proj (.addKey (polyMarker env marker c))) (step fresh proj (.addStr name))

mutual
/-- Serialize.tpp:1303-1324 `print` (one pass) with the `SerializerForBlock` specialisations: `Thors.ser`, directly on the printer. -/
def ser : Ty → Val → St → Res (List Write × St)
  | .int k, .int i => step fresh proj (.addInt k i)
  | .flt f, .flt x => step fresh proj (.addFlt f x)
  | .bool, .bool b => step fresh proj (.addBool b)
  | .str, .str s => step fresh proj (.addStr s)
  | .seq k t, .list vs => fun s =>
    block fresh proj (psize env marker info s.store.isSome proj s.st.conts false (.seq k t) (.list vs)) .openArray .closeArray (serList t vs) s
  | .arr n t, .list vs => fun s =>
    block fresh proj (psize env marker info s.store.isSome proj s.st.conts false (.arr n t) (.list vs)) .openArray .closeArray (serList t vs) s
  | .smap t, .dict kvs => fun s =>
    block fresh proj (psize env marker info s.store.isSome proj s.st.conts false (.smap t) (.dict kvs)) .openMap .closeMap (serDict t kvs) s
  | .mmap t, .dict kvs => fun s =>
    block fresh proj (psize env marker info s.store.isSome proj s.st.conts false (.mmap t) (.dict kvs)) .openMap .closeMap (serDict t kvs) s
  | .umap t, .dict kvs => fun s =>
    block fresh proj (psize env marker info s.store.isSome proj s.st.conts false (.umap t) (.dict kvs)) .openMap .closeMap (serDict t kvs) s
  | .opt t, .some v => ser t v
  | .opt _, .none => fun _ => throwStd
  | .uptr _, .null => step fresh proj .addNull
  | .uptr t, .ptr v => ser t v
  | .pptr _, .null => step fresh proj .addNull
  | .pptr _, .dyn c (.obj ps fs) =>
    match env.defs c with
    | .cls ⟨.mk dps ms f, name, _⟩ => fun s =>
      block fresh proj (psize env marker info s.store.isSome proj s.st.conts true (.named c) (.obj ps fs)) .openMap .closeMap
        (andThen (className env marker fresh proj c name) (andThen (serOwn f (.obj ps fs) ms fs) (serParents dps ps))) s
    | _ => fun _ => .ub
  | .named i, .obj ps fs =>
    match env.defs i with
    | .cls ⟨.mk dps ms f, name, field⟩ => fun s =>
      block fresh proj (psize env marker info s.store.isSome proj s.st.conts false (.named i) (.obj ps fs)) .openMap .closeMap
        (andThen (if field.isSome then className env marker fresh proj i name else fun s => .ok ([], s))
          (andThen (serOwn f (.obj ps fs) ms fs) (serParents dps ps))) s
    | _ => fun _ => .ub
  | .named i, .list vs =>
    match env.defs i with
    | .tuple ts => fun s =>
      block fresh proj (psize env marker info s.store.isSome proj s.st.conts false (.named i) (.list vs)) .openArray .closeArray (serTuple ts vs) s
    | _ => fun _ => .ub
  | .named i, .enum e =>
    match env.defs i with
    | .enum table =>
      match enumName table e with
      | some s => step fresh proj (.addStr s)
      | none => fun _ => throwStd
    | _ => fun _ => .ub
  | .named _, .alt c (.obj ps fs) =>
    match env.defs c with
    | .cls ⟨.mk dps ms f, name, _⟩ => fun s =>
      block fresh proj (psize env marker info s.store.isSome proj s.st.conts true (.named c) (.obj ps fs)) .openMap .closeMap
        (andThen (className env marker fresh proj c name) (andThen (serOwn f (.obj ps fs) ms fs) (serParents dps ps))) s
    | _ => fun _ => .ub
  | _, _ => fun _ => .ub
termination_by structural _ v => v
/-- The elements of a sequence container, SerUtil.h:225-232. -/
def serList : Ty → List Val → St → Res (List Write × St)
  | _, [] => fun s => .ok ([], s)
  | t, v :: vs => andThen (ser t v) (serList t vs)
termination_by structural _ vs => vs
/-- The elements of a tuple, SerUtil.h:836-846. -/
def serTuple : List Ty → List Val → St → Res (List Write × St)
  | [], [] => fun s => .ok ([], s)
  | t :: ts, v :: vs => andThen (ser t v) (serTuple ts vs)
  | _, _ => fun _ => .ub
termination_by structural _ vs => vs
/-- The elements of an associative container, SerUtil.h:610-618. -/
def serDict : Ty → List (Bytes × Val) → St → Res (List Write × St)
  | _, [] => fun s => .ok ([], s)
  | t, (k, v) :: kvs => andThen (andThen (step fresh proj (.addKey k)) (ser t v)) (serDict t kvs)
termination_by structural _ vs => vs
/-- Serialize.tpp:1277-1288 `printEachMember` with 1214-1256. -/
def serOwn (f : Option (Val → Bytes → Bool)) (self : Val) : List Member → List Val → St → Res (List Write × St)
  | [], [] => fun s => .ok ([], s)
  | m :: ms, v :: vs =>
    if keepMember f self m v then andThen (andThen (step fresh proj (.addKey m.out)) (ser m.ty v)) (serOwn f self ms vs)
    else serOwn f self ms vs
  | _, _ => fun _ => .ub
termination_by structural _ vs => vs
/-- Serialize.tpp:39-83 `printParentMembers`. -/
def serParents : List StructDef → List Val → St → Res (List Write × St)
  | [], [] => fun s => .ok ([], s)
  | .mk dps ms f :: ds, .obj ps fs :: vs =>
    andThen (andThen (serOwn f (.obj ps fs) ms fs) (serParents dps ps)) (serParents ds vs)
  | _, _ => fun _ => .ub
termination_by structural _ vs => vs
end

/-- One pass of the printer over a value, with `closeDoc`: Serialize.tpp:1303-1324, Serialize.h:287-303. -/
def pass (base : BCont) (ty : Ty) (v : Val) (s : St) : Res (List Write × St) := do
  let (ws, s) ← ser env marker info fresh proj ty v s
  return (ws ++ BPrint.closeDoc base, s)

end
end BIds

/-- `stream << bsonExporter(value, config, store)` (BsonThor.h:93-99): what is written to the stream, and the store afterwards. -/
def bsonExportIds (env : Env) (info : BPrint.SizeInfo) (marker : Bytes) (fresh : Nat → ObjectID) (ty : Ty) (v : Val) (store : Option (List ObjectID)) :
    Res (Bytes × Option (List ObjectID)) := do
  if bsonRefuses ty v then throwStd else
  let (ws, s) ← BIds.pass env marker info fresh false (bsonBase env ty) ty v (BIds.init store)
  return (bytesOf ws, s.store)

/-- `string << bsonExporter(value, config, store)`: two passes of the same printer (Serialize.tpp:1306-1317; `reset` does nothing,
PrinterInterface.h:40). -/
def bsonExportIdsString (env : Env) (info : BPrint.SizeInfo) (marker : Bytes) (fresh : Nat → ObjectID) (ty : Ty) (v : Val) (store : Option (List ObjectID))
    (old : Bytes) : Res (Bytes × Option (List ObjectID)) := do
  if bsonRefuses ty v then throwStd else
  let o := (StrOut.ofString old true).preflightSize
  let (ws, s) ← BIds.pass env marker info fresh false (bsonBase env ty) ty v (BIds.init store)
  let o ← o.putAll ws
  let o := o.reserveSize
  let (ws, s) ← BIds.pass env marker info fresh false (bsonBase env ty) ty v s
  let o ← o.putAll ws
  let o ← o.finalizePrint
  return (o.data, s.store)

/-- BsonThor.h:134-142 `bsonGetPrintSize(value, config, store)`. -/
def bsonGetPrintSize (env : Env) (info : BPrint.SizeInfo) (marker : Bytes) (ty : Ty) (v : Val) (store : Option (List ObjectID)) : Res Nat :=
  if bsonRefuses ty v then throwStd else BIds.psize env marker info store.isSome false [] false ty v

/-- `stream << bsonExporter(Projection<T>{value})` (BsonThor.h:149-186, Serialize.tpp:1109-1130). `Projection<T>` has `TraitType::Reference`, so
that the document is taken for an array (BsonThor.h:30-80): `closeDoc` writes nothing. -/
def bsonExportProjection (env : Env) (info : BPrint.SizeInfo) (marker : Bytes) (ty : Ty) (v : Val) : Res Bytes := do
  let (ws, _) ← BIds.pass env marker info (fun _ => ⟨0, 0, 0, []⟩) true .Array ty v (BIds.init none)
  return bytesOf ws

/-- The export of an object with a single member of type `Projection<T>`: the size of the object is computed while the printer is not in
projection mode (`Traits<Projection<T>>::getPrintSize`, BsonThor.h:179-183, does not set it). -/
def bsonExportProjMember (env : Env) (info : BPrint.SizeInfo) (marker : Bytes) (key : Bytes) (ty : Ty) (v : Val) : Res Bytes := do
  let fresh := fun _ => (⟨0, 0, 0, []⟩ : ObjectID)
  let n ← BIds.psize env marker info false false [.Map] false ty v
  let (ws, _) ← BIds.block fresh false (.ok (BIds.sizeMap false [] 1 + (key.length + n))) .openMap .closeMap
    (BIds.andThen (BIds.step fresh false (.addKey key)) (BIds.ser env marker info fresh true ty v)) (BIds.init none)
  return bytesOf ws

/-- `stream << bsonExporter(range, config, store)`, Exporter.h:127-161 with BsonThor.h:100-106. -/
def bsonExportRange (env : Env) (info : BPrint.SizeInfo) (marker : Bytes) (fresh : Nat → ObjectID) (t : Ty) (vs : List Val) (store : Option (List ObjectID)) :
    Res (Bytes × Option (List ObjectID)) := do
  let size ← BIds.psizeList env marker info store.isSome false [.Array] t vs
  let (ws, s) ← BIds.block fresh false (.ok (BPrint.sizeArray vs.length + size)) .openArray .closeArray
    (BIds.serList env marker info fresh false t vs) (BIds.init store)
  return (bytesOf (ws ++ BPrint.closeDoc .Array), s.store)

end Thors
