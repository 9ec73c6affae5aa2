import Verif.Model.Types
/-
Model of the serialiser (`/repo/src/Serialize/Serialize.tpp:905-1355`, `SerUtil.h`, `Traits.h`): the calls
it makes on the printer for a C++ value of a given type. The calls do not depend on what the printer does
with them, so they are given as a list.
-/
namespace Thors
open StrIn

/-- PrinterInterface.h:46-73: the calls of the serialiser on the printer. The argument of `openMap` and
`openArray` is the size computed by `getPrintSize`, which only BSON uses. -/
inductive Cmd
  | openMap (size : Nat)
  | closeMap
  | openArray (size : Nat)
  | closeArray
  | addKey (key : Bytes)
  | addInt (k : IntKind) (i : Int)
  | addFlt (f : FKind) (x : Flt)
  | addBool (b : Bool)
  | addStr (s : Bytes)
  | addNull
  deriving DecidableEq, Repr

/-- `Filter<T>::filter(object, name, value)`: the user's filter (Traits.h:620-640) decides if there is one;
otherwise (Traits.h:966-978) a member is skipped exactly if it is an empty `std::optional`. -/
def keepMember (filter : Option (Val → Bytes → Bool)) (self : Val) (m : Member) (v : Val) : Bool :=
  match filter with
  | some f => f self m.name
  | none =>
    match m.ty, v with
    | .opt _, .none => false
    | _, _ => true

/-- `getValues().find(object)` in the table of an enumeration (Traits.h:797-799). -/
def enumName (table : List (Int × Bytes)) (i : Int) : Option Bytes := table.lookup i

/-- Put the calls of a block between `openMap` and `closeMap` (Serialize.tpp:921-934). -/
def inMap (size : Res Nat) (body : Res (List Cmd)) : Res (List Cmd) := do
  let n ← size
  let b ← body
  return .openMap n :: b ++ [.closeMap]

/-- Put the calls of a block between `openArray` and `closeArray` (Serialize.tpp:1193-1206). -/
def inArray (size : Res Nat) (body : Res (List Cmd)) : Res (List Cmd) := do
  let n ← size
  let b ← body
  return .openArray n :: b ++ [.closeArray]

section
variable (env : Env) (marker : Bytes) (sz : Ty → Val → Bool → Res Nat)

mutual
/-- Serialize.tpp:1303-1324 `print` (one pass) with the `SerializerForBlock` specialisations. `sz` is
`Traits<T>::getPrintSize(printer, object, poly)`, called if `printerUsesSize()`; for the other formats it is
constantly 0. A value that does not have the type is `ub` (the C++ type system excludes it).
 * Value: Serialize.tpp:949-967 and SerUtil.h:170-190.
 * Array: Serialize.tpp:1184-1212 with SerUtil.h:225-232; tuples SerUtil.h:836-846.
 * Map (associative containers): Serialize.tpp:906-935, SerUtil.h:610-618, 667-676, 800-808.
 * Reference (`std::optional`): Serialize.tpp:1109-1130; `value()` of an empty one throws
   `std::bad_optional_access` (SerUtil.h:979).
 * Pointer: Serialize.tpp:1013-1074. `pptr`: virtual call of `printPolyMorphicObject` of the dynamic class
   (Traits.h:892-896, Serialize.tpp:1040-1048, 948-953): first the marker and the class name.
 * Map (classes): Serialize.tpp:936-947; the marker and name come first exactly if the class has a type
   field name.
 * Enum: Serialize.tpp:1165-1182 with Traits.h:794-806.
 * Variant: Serialize.tpp:1132-1163. -/
def ser : Ty → Val → Res (List Cmd)
  | .int k, .int i => .ok [.addInt k i]
  | .flt f, .flt x => .ok [.addFlt f x]
  | .bool, .bool b => .ok [.addBool b]
  | .str, .str s => .ok [.addStr s]
  | .seq k t, .list vs => inArray (sz (.seq k t) (.list vs) false) (serList t vs)
  | .arr n t, .list vs => inArray (sz (.arr n t) (.list vs) false) (serList t vs)
  | .smap t, .dict kvs => inMap (sz (.smap t) (.dict kvs) false) (serDict t kvs)
  | .mmap t, .dict kvs => inMap (sz (.mmap t) (.dict kvs) false) (serDict t kvs)
  | .umap t, .dict kvs => inMap (sz (.umap t) (.dict kvs) false) (serDict t kvs)
  | .opt t, .some v => ser t v
  | .opt _, .none => throwStd
  | .uptr _, .null => .ok [.addNull]
  | .uptr t, .ptr v => ser t v
  | .pptr _, .null => .ok [.addNull]
  | .pptr _, .dyn c (.obj ps fs) =>
    match env.defs c with
    | .cls ⟨.mk dps ms f, name, _⟩ =>
      inMap (sz (.named c) (.obj ps fs) true) do
        let own ← serOwn f (.obj ps fs) ms fs
        let up ← serParents dps ps
        return .addKey (polyMarker env marker c) :: .addStr name :: (own ++ up)
    | _ => .ub
  | .named i, .obj ps fs =>
    match env.defs i with
    | .cls ⟨.mk dps ms f, name, field⟩ =>
      inMap (sz (.named i) (.obj ps fs) false) do
        let own ← serOwn f (.obj ps fs) ms fs
        let up ← serParents dps ps
        return (if field.isSome then [.addKey (polyMarker env marker i), .addStr name] else []) ++ (own ++ up)
    | _ => .ub
  | .named i, .list vs =>
    match env.defs i with
    | .tuple ts => inArray (sz (.named i) (.list vs) false) (serTuple ts vs)
    | _ => .ub
  | .named i, .enum e =>
    match env.defs i with
    | .enum table =>
      match enumName table e with
      | some s => .ok [.addStr s]
      | none => throwStd
    | _ => .ub
  | .named _, .alt c (.obj ps fs) =>
    match env.defs c with
    | .cls ⟨.mk dps ms f, name, _⟩ =>
      inMap (sz (.named c) (.obj ps fs) true) do
        let own ← serOwn f (.obj ps fs) ms fs
        let up ← serParents dps ps
        return .addKey (polyMarker env marker c) :: .addStr name :: (own ++ up)
    | _ => .ub
  | _, _ => .ub
/-- The elements of a sequence container, SerUtil.h:225-232. -/
def serList : Ty → List Val → Res (List Cmd)
  | _, [] => .ok []
  | t, v :: vs => do
    let a ← ser t v
    let b ← serList t vs
    return a ++ b
/-- The elements of a tuple, SerUtil.h:836-846. -/
def serTuple : List Ty → List Val → Res (List Cmd)
  | [], [] => .ok []
  | t :: ts, v :: vs => do
    let a ← ser t v
    let b ← serTuple ts vs
    return a ++ b
  | _, _ => .ub
/-- The elements of an associative container, SerUtil.h:610-618. -/
def serDict : Ty → List (Bytes × Val) → Res (List Cmd)
  | _, [] => .ok []
  | t, (k, v) :: kvs => do
    let a ← ser t v
    let b ← serDict t kvs
    return .addKey k :: a ++ b
/-- Serialize.tpp:1277-1288 `printEachMember` with 1214-1256: the own members of an object, in declaration
order. `self` is the object itself. -/
def serOwn (f : Option (Val → Bytes → Bool)) (self : Val) : List Member → List Val → Res (List Cmd)
  | [], [] => .ok []
  | m :: ms, v :: vs =>
    if keepMember f self m v then do
      let a ← ser m.ty v
      let b ← serOwn f self ms vs
      return .addKey m.out :: a ++ b
    else serOwn f self ms vs
  | _, _ => .ub
/-- Serialize.tpp:39-83 `printParentMembers`: `printObjectMembers` (1346-1355: own members, then parents)
of each parent from left to right. -/
def serParents : List StructDef → List Val → Res (List Cmd)
  | [], [] => .ok []
  | .mk dps ms f :: ds, .obj ps fs :: vs => do
    let own ← serOwn f (.obj ps fs) ms fs
    let up ← serParents dps ps
    let b ← serParents ds vs
    return own ++ up ++ b
  | _, _ => .ub
end
end

/-- The printer does not use sizes (PrinterInterface.h:78). -/
def noSize : Ty → Val → Bool → Res Nat := fun _ _ _ => .ok 0

end Thors
