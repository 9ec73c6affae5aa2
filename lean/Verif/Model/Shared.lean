import Verif.Model.JsonPrinter
import Verif.Model.JsonParser
import Verif.Model.Ser
import Verif.Model.Deser
/-
Model of `std::shared_ptr` in documents: `/repo/src/Serialize/PrinterInterface.h:147-163` `addShared`,
`ParserInterface.h:326-338` `getShared`, `Serialize.tpp:518-547` and `1081-1107`.

Shared pointers need a memory: several handles can point to one object. Types without a shared pointer inside
are those of `Model/Types.lean` and are read and written by `deser` and `ser`.
-/
namespace Thors
open StrIn

/-- A C++ type that may contain shared pointers: a type without them; a class with members of such types; a
sequence container; `std::shared_ptr<T>` (SerUtil.h:929-962). Simplifications: classes with shared pointers
inside have no parents, no filter, no renamed members and are not polymorphic; other containers of shared
pointers are not modelled. -/
inductive STy
  | plain (t : Ty)
  | cls (c : Nat)
  | vec (t : STy)
  | shared (t : STy)
  deriving DecidableEq, Repr

/-- The declarations: those of the plain types, and the members (name, type) of the classes with shared
pointers inside. -/
structure SEnv where
  env : Env
  classes : Nat → List (Bytes × STy)

/-- A value. `handle loc target` is a shared pointer: `loc` is the address of the `shared_ptr` object itself,
`target` the address of what it points to. `unset`: a member of a fresh object that was not read. -/
inductive SVal
  | plain (v : Val)
  | obj (fs : List SVal)
  | list (vs : List SVal)
  | handle (loc : Nat) (target : Option Nat)
  | unset

/-- PrinterInterface.h:168 `savedSharedPtr`: for the address of an object, the address of the first handle to
it that was printed. -/
abbrev Saved := List (Nat × Nat)

/-- PrinterInterface.h:148-163 `addShared`, for a handle that lives at `loc` and points to `a`: whether
`result.data` is set, and the new table. -/
def addShared (loc a : Nat) (saved : Saved) : Bool × Saved :=
  match saved.lookup a with
  | none => (true, (a, loc) :: saved)
  | some l => (l == loc, saved)

/-- ThorsSerializerUtilTypes.h:19-24 `SharedInfo`, Serialize.h:49 its members. -/
def infoName : Bytes := [0x73, 0x68, 0x61, 0x72, 0x65, 0x64, 0x50, 0x74, 0x72, 0x4E, 0x61, 0x6D, 0x65]
def infoData : Bytes := [0x64, 0x61, 0x74, 0x61]

/-- `std::intmax_t` -/
def intmax : IntKind := ⟨64, true⟩

section
variable (S : SEnv) (marker : Bytes) (H : Nat → SVal)

mutual
/-- The calls on the printer for a value, and the table afterwards; `H` is the memory, the object at each
address. Serialize.tpp:1081-1107 (shared pointers: `null`, or an object with the members of `SharedInfo`, where
an unset `data` is left out), 1184-1212 (sequences), 936-947 and 1277-1288 (classes), for a printer without
sizes. -/
def sser (t : STy) (v : SVal) (saved : Saved) : Res (List Cmd × Saved) :=
  match t, v with
  | .plain t, .plain v => do
    let c ← ser S.env marker noSize t v
    return (c, saved)
  | .vec t, .list vs => do
    let (c, saved) ← sserList t vs saved
    return (.openArray 0 :: c ++ [.closeArray], saved)
  | .cls c, .obj fs => do
    let (c, saved) ← sserMembers (S.classes c) fs saved
    return (.openMap 0 :: c ++ [.closeMap], saved)
  | .shared _, .handle _ none => .ok ([.addNull], saved)
  | .shared t, .handle loc (some a) =>
    match addShared loc a saved with
    | (true, saved) => do
      let (c, saved) ← sser t (H a) saved
      return (.openMap 0 :: .addKey infoName :: .addInt intmax a :: .addKey infoData :: c ++ [.closeMap], saved)
    | (false, saved) => .ok ([.openMap 0, .addKey infoName, .addInt intmax a, .closeMap], saved)
  | _, _ => .ub
partial_fixpoint
/-- The elements of a sequence, SerUtil.h:225-232. -/
def sserList (t : STy) (vs : List SVal) (saved : Saved) : Res (List Cmd × Saved) :=
  match vs with
  | [] => .ok ([], saved)
  | v :: vs => do
    let (a, saved) ← sser t v saved
    let (b, saved) ← sserList t vs saved
    return (a ++ b, saved)
partial_fixpoint
/-- The members of an object, Serialize.tpp:1277-1288. -/
def sserMembers (ms : List (Bytes × STy)) (fs : List SVal) (saved : Saved) : Res (List Cmd × Saved) :=
  match ms, fs with
  | [], [] => .ok ([], saved)
  | (n, t) :: ms, v :: fs => do
    let (a, saved) ← sser t v saved
    let (b, saved) ← sserMembers ms fs saved
    return (.addKey n :: a ++ b, saved)
  | _, _ => .ub
partial_fixpoint
end

/-- Export to JSON on a stream of a value with shared pointers (as `jsonExport`). Each `Exporter` makes its own
printer (Exporter.h:96-104), so the table is empty. -/
noncomputable def sjsonExport (cfg : PrintCfg) (t : STy) (v : SVal) : Res Bytes := do
  let (cmds, _) ← sser S marker H t v []
  let (ws, _) ← JPrint.run cfg cmds JPrint.init
  return bytesOf ws
end

/-- What an import has built: ParserInterface.h:350 `savedSharedPtr` (for a name, the type of the shared pointer
that was saved and where it points to), and the objects that were allocated for shared pointers. -/
structure Loaded where
  saved : List (Int × (STy × Option Nat))
  heap : List SVal

/-- ParserInterface.h:326-338 `getShared`. A `SharedInfo` whose name was not in the document holds an
uninitialised integer (Serialize.tpp:541), so using it is `ub`. `std::any_cast` throws unless exactly a
`std::shared_ptr` of that type was saved under the name. -/
def getShared (t : STy) (name : Option Int) (data : Option (Option Nat)) (st : Loaded) : Res (SVal × Loaded) :=
  match name with
  | none => .ub
  | some i =>
    match data with
    | some target => .ok (.handle 0 target, { st with saved := (i, t, target) :: st.saved })
    | none =>
      match st.saved.lookup i with
      | some (t', target) => if t' = t then .ok (.handle 0 target, st) else throwStd
      | none => throwStd

/-- ThorsSerializerUtil.h:179 `Traits<T*>::release`, called by Serialize.tpp:503 before a pointer is read: `data` that was read before is
deleted. A deleted object is `unset` in the memory. -/
def release (data : Option (Option Nat)) (st : Loaded) : Loaded :=
  match data with
  | some (some a) => { st with heap := st.heap.set a .unset }
  | some none | none => st

/-- Look a member up by its name (Serialize.tpp:223-250), from position `i` on. -/
def smemberAt (key : Bytes) : List (Bytes × STy) → Nat → Option (Nat × STy)
  | [], _ => none
  | (n, t) :: ms, i => if n = key then some (i, t) else smemberAt key ms (i + 1)

section
variable {σ : Type} (o : POps σ) (S : SEnv) (cfg : Cfg)

mutual
/-- Read a value of the type into a fresh object. `plain`: as `deser`. `vec`: Serialize.tpp:621-662. `cls`:
Serialize.tpp:208-263. `shared`: Serialize.tpp:518-547. -/
def sdeser (t : STy) (st : Loaded) (p : PI σ) : Res ((SVal × Loaded) × PI σ) :=
  match t with
  | .plain t => do
    let (v, p) ← deser o S.env cfg t (t.default S.env) p
    return ((.plain v, st), p)
  | .vec t => do
    let (k, p) ← p.getToken o
    if k ≠ .ArrayStart then throwStd else
    sdeserVec t [] st p
  | .cls c => do
    let (k, p) ← p.getToken o
    if k ≠ .MapStart then throwStd else
    sdeserMembers (S.classes c) [] ((S.classes c).map fun _ => .unset) st p
  | .shared t => do
    let (k, p) ← p.getToken o
    if k = .Value ∧ o.isNull p.inner = true then
      let s ← o.ignoreData p.inner
      return ((.handle 0 none, st), { p with inner := s })
    else
      let (k, p) ← (p.pushBackToken k).getToken o
      if k ≠ .MapStart then throwStd else
      let ((name, data, st), p) ← sdeserInfo t [] none none st p
      let r ← getShared t name data st
      return (r, p)
partial_fixpoint
/-- The elements of a sequence. -/
def sdeserVec (t : STy) (vs : List SVal) (st : Loaded) (p : PI σ) : Res ((SVal × Loaded) × PI σ) := do
  let (k, p) ← p.getToken o
  if k = .ArrayEnd then return ((.list vs, st), p) else
  let ((v, st), p) ← sdeser t st (p.pushBackToken k)
  sdeserVec t (vs ++ [v]) st p
partial_fixpoint
/-- The members of an object (as `deserMembers`). -/
def sdeserMembers (ms : List (Bytes × STy)) (found : List Bytes) (fs : List SVal) (st : Loaded) (p : PI σ) :
    Res ((SVal × Loaded) × PI σ) := do
  let (k, p) ← p.getToken o
  if k = .MapEnd then
    if cfg.strict = .Exact ∧ ms.all (fun m => found.contains m.1) = false then throwStd else return ((.obj fs, st), p)
  else
  let (key, p) ← p.lift (o.getKey p.inner)
  match smemberAt key ms 0 with
  | none => do
    let p ← p.ignoreValue o cfg.strict
    sdeserMembers ms found fs st p
  | some (i, t) => do
    let ((v, st), p) ← sdeser t st p
    sdeserMembers ms (key :: found) (fs.set i v) st p
partial_fixpoint
/-- The members of a `SharedInfo<T>`: the integer `sharedPtrName` and the `std::optional<T*>` `data`; for the
latter Serialize.tpp:491-517 and 548-567: what was read before is deleted; a null pointer or a fresh object. -/
def sdeserInfo (t : STy) (found : List Bytes) (name : Option Int) (data : Option (Option Nat)) (st : Loaded) (p : PI σ) :
    Res ((Option Int × Option (Option Nat) × Loaded) × PI σ) := do
  let (k, p) ← p.getToken o
  if k = .MapEnd then
    if cfg.strict = .Exact ∧ (found.contains infoName && found.contains infoData) = false then throwStd else
    return ((name, data, st), p)
  else
  let (key, p) ← p.lift (o.getKey p.inner)
  if key = infoName then
    let (k, p) ← p.getToken o
    if k ≠ .Value then throwStd else
    let (i, p) ← p.lift (o.getInt intmax p.inner)
    sdeserInfo t (key :: found) (some i) data st p
  else if key = infoData then
    let (k, p) ← p.getToken o
    if o.isNull p.inner = true then
      let s ← o.ignoreData p.inner
      sdeserInfo t (key :: found) name (some none) (release data st) { p with inner := s }
    else
      let ((v, st), p) ← sdeser t (release data st) (p.pushBackToken k)
      sdeserInfo t (key :: found) name (some (some st.heap.length)) { st with heap := st.heap ++ [v] } p
  else
    let p ← p.ignoreValue o cfg.strict
    sdeserInfo t found name data st p
partial_fixpoint
end

/-- Serialize.h:250-283: document start, the value, document end (as `importValue`). Each `Importer` makes its
own parser, so nothing is saved at the start. -/
def simportValue (t : STy) (p : PI σ) : Res ((SVal × Loaded) × PI σ) := do
  let (k, p) ← p.getToken o
  if k ≠ .DocStart then throwStd else
  let (v, p) ← sdeser o S cfg t ⟨[], []⟩ p
  let (k, p) ← p.getToken o
  if k ≠ .DocEnd then throwStd else
  return (v, p)
end

end Thors
