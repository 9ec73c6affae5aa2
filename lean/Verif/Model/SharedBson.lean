import Verif.Model.Shared
import Verif.Model.BsonPrinter
import Verif.Model.BsonStream
import Verif.Model.JsonStream
import Verif.Model.Yaml
/-
Model of `std::shared_ptr` in BSON (`/repo/src/Serialize/SerUtil.h:946-954`, the size, and `BsonThor.h:64-80`), in YAML, and of
exports with shared pointers to a `std::string`.
-/
namespace Thors
open StrIn BPrint

section
variable (S : SEnv) (marker : Bytes) (info : SizeInfo) (H : Nat → SVal)

/-- The size of a `SharedInfo` (ThorsSerializerUtilTypes.h:19-24, Serialize.h:49): a class that is not polymorphic, with the integer
`sharedPtrName` and the `std::optional<T*>` `data`, left out if empty; `n` is the size of what is pointed to (Traits.h:1030-1079,
ThorsSerializerUtil.h:65-72, 180-187). -/
def infoSize (n : Option Nat) : Nat :=
  match n with
  | some n => sizeMap 2 + (infoName.length + intWidth intmax + (infoData.length + n))
  | none => sizeMap 1 + (infoName.length + intWidth intmax)

mutual
/-- `Traits<T>::getPrintSize(printer, object, poly)` for BSON, and the table of the printer afterwards: computing the size of a
`std::shared_ptr` calls `addShared` (SerUtil.h:946-954). Sequences: SerUtil.h:105-119. Classes: Traits.h:1030-1079. What a pointer
points to is asked with `poly` (ThorsSerializerUtil.h:180-187). -/
def ssize (p : Bool) (t : STy) (v : SVal) (saved : Saved) : Res (Nat × Saved) :=
  match t, v with
  | .plain t, .plain v => do
    let n ← psize S.env marker info p t v
    return (n, saved)
  | .vec t, .list vs => do
    let (n, saved) ← ssizeList t vs saved
    return (sizeArray vs.length + n, saved)
  | .cls c, .obj fs => do
    let (n, saved) ← ssizeMembers (S.classes c) fs saved
    return (sizeMap fs.length + n, saved)
  | .shared _, .handle _ none => .ok (0, saved)
  | .shared t, .handle loc (some a) =>
    match addShared loc a saved with
    | (true, saved) => do
      let (n, saved) ← ssize true t (H a) saved
      return (infoSize (some n), saved)
    | (false, saved) => .ok (infoSize none, saved)
  | _, _ => .ub
partial_fixpoint
/-- The elements of a sequence, SerUtil.h:112-115. -/
def ssizeList (t : STy) (vs : List SVal) (saved : Saved) : Res (Nat × Saved) :=
  match vs with
  | [] => .ok (0, saved)
  | v :: vs => do
    let (a, saved) ← ssize false t v saved
    let (b, saved) ← ssizeList t vs saved
    return (a + b, saved)
partial_fixpoint
/-- The members of an object, Traits.h:1030-1062. -/
def ssizeMembers (ms : List (Bytes × STy)) (fs : List SVal) (saved : Saved) : Res (Nat × Saved) :=
  match ms, fs with
  | [], [] => .ok (0, saved)
  | (n, t) :: ms, v :: fs => do
    let (a, saved) ← ssize false t v saved
    let (b, saved) ← ssizeMembers ms fs saved
    return (n.length + a + b, saved)
  | _, _ => .ub
partial_fixpoint
end

mutual
/-- The calls on the BSON printer for a value, and the table afterwards (as `sser`). Each container asks for its size before it is
opened (Serialize.tpp:921-929, 1193-1206), which also changes the table. Shared pointers: Serialize.tpp:1095-1106. -/
def sserB (t : STy) (v : SVal) (saved : Saved) : Res (List Cmd × Saved) :=
  match t, v with
  | .plain t, .plain v => do
    let c ← ser S.env marker (fun t w p => psize S.env marker info p t w) t v
    return (c, saved)
  | .vec t, .list vs => do
    let (n, saved) ← ssize S marker info H false (.vec t) (.list vs) saved
    let (c, saved) ← sserBList t vs saved
    return (.openArray n :: c ++ [.closeArray], saved)
  | .cls c, .obj fs => do
    let (n, saved) ← ssize S marker info H false (.cls c) (.obj fs) saved
    let (c, saved) ← sserBMembers (S.classes c) fs saved
    return (.openMap n :: c ++ [.closeMap], saved)
  | .shared _, .handle _ none => .ok ([.addNull], saved)
  | .shared t, .handle loc (some a) =>
    match addShared loc a saved with
    | (true, saved) => do
      let (n, saved) ← ssize S marker info H true t (H a) saved
      let (c, saved) ← sserB t (H a) saved
      return (.openMap (infoSize (some n)) :: .addKey infoName :: .addInt intmax a :: .addKey infoData :: c ++ [.closeMap], saved)
    | (false, saved) => .ok ([.openMap (infoSize none), .addKey infoName, .addInt intmax a, .closeMap], saved)
  | _, _ => .ub
partial_fixpoint
/-- The elements of a sequence, SerUtil.h:225-232. -/
def sserBList (t : STy) (vs : List SVal) (saved : Saved) : Res (List Cmd × Saved) :=
  match vs with
  | [] => .ok ([], saved)
  | v :: vs => do
    let (a, saved) ← sserB t v saved
    let (b, saved) ← sserBList t vs saved
    return (a ++ b, saved)
partial_fixpoint
/-- The members of an object, Serialize.tpp:1277-1288. -/
def sserBMembers (ms : List (Bytes × STy)) (fs : List SVal) (saved : Saved) : Res (List Cmd × Saved) :=
  match ms, fs with
  | [], [] => .ok ([], saved)
  | (n, t) :: ms, v :: fs => do
    let (a, saved) ← sserB t v saved
    let (b, saved) ← sserBMembers ms fs saved
    return (.addKey n :: a ++ b, saved)
  | _, _ => .ub
partial_fixpoint
end

/-- BsonThor.h:32-66 `BsonBaseTypeGetter<T>::value`: for a pointer it is that of the type pointed to, also for a
`std::shared_ptr`, although that is always written as a document. -/
def sbase : STy → BCont
  | .plain t => bsonBase S.env t
  | .vec _ => .Array
  | .cls _ => .Map
  | .shared t => sbase t

/-- BsonThor.h:67-79 `validate`. -/
def srefuses : STy → SVal → Bool
  | .plain t, .plain v => bsonRefuses t v
  | .shared _, .handle _ none => true
  | _, _ => false

/-- One pass of the BSON printer over a value (as `bsonPass`), and its table afterwards. -/
def sbsonPass (t : STy) (v : SVal) (saved : Saved) : Res (List Write × Saved) := do
  let (cmds, saved) ← sserB S marker info H t v saved
  let (ws, _) ← BPrint.run cmds BPrint.init
  return (ws ++ closeDoc (sbase S t), saved)

/-- `stream << bsonExporter(value)` (as `bsonExport`). -/
def sbsonExport (t : STy) (v : SVal) : Res Bytes := do
  if srefuses t v then throwStd else
  let (ws, _) ← sbsonPass S marker info H t v []
  return bytesOf ws

/-- `string << bsonExporter(value)` (as `bsonExportString`): the second pass finds the table that the first one left, `reset`
(PrinterInterface.h:40) does not clear it. -/
def sbsonExportString (t : STy) (v : SVal) (old : Bytes) : Res Bytes := do
  if srefuses t v then throwStd else
  let s := (StrOut.ofString old true).preflightSize
  let (ws, saved) ← sbsonPass S marker info H t v []
  let s ← s.putAll ws
  let s := s.reserveSize
  let (ws, _) ← sbsonPass S marker info H t v saved
  let s ← s.putAll ws
  let s ← s.finalizePrint
  return s.data
end

/-- `string << jsonExporter(value)` (as `jsonExportString`): `reset` (JsonPrinter.cpp:152-156) does not clear the table either. -/
noncomputable def sjsonExportString (S : SEnv) (H : Nat → SVal) (cfg : PrintCfg) (t : STy) (v : SVal) (old : Bytes) : Res Bytes := do
  let s := (StrOut.ofString old (!cfg.exact)).preflightSize
  let (cmds, saved) ← sser S cfg.marker H t v []
  let (ws, _) ← JPrint.run cfg cmds JPrint.init
  let s ← s.putAll ws
  let s := s.reserveSize
  let (cmds, _) ← sser S cfg.marker H t v saved
  let (ws, _) ← JPrint.run cfg cmds JPrint.init
  let s ← s.putAll ws
  let s ← s.finalizePrint
  return s.data

/-- `stream << yamlExporter(value)` (as `yamlExport`): the events given to libyaml. -/
noncomputable def syamlExport (accepts : Bytes → Bool) (S : SEnv) (marker : Bytes) (H : Nat → SVal) (t : STy) (v : SVal) : Res (List YEv) := do
  let (cmds, _) ← sser S marker H t v []
  let (es, _) ← YPrint.run accepts cmds [(0, .Value)]
  return [.streamStart, .docStart] ++ es ++ [.docEnd, .streamEnd]

end Thors
