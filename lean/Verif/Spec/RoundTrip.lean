import Verif.Spec.Doc
import Verif.Spec.Positions
import Verif.Spec.Range
/-
Specification: which values a document can bring back, what a fresh object is, and what comes back.
-/
namespace Thors.Spec
open Thors

/-- A type whose values can be represented by `null`. -/
def nullable : Ty → Bool
  | .uptr _ => true
  | .pptr _ => true
  | .opt t => nullable t
  | _ => false

/-- The order of the keys of an associative container: ascending without or with repetitions, or just
distinct. -/
def keysOrdered (kind : DictKind) (keys : List Bytes) : Prop :=
  match kind with
  | .sorted => keys.Pairwise (fun a b => keyLt a b = true)
  | .multi => keys.Pairwise (fun a b => keyLt b a = false)
  | .unordered => keys.Pairwise (fun a b => a ≠ b)

/-- The order of the elements of a container: ascending in a set, not descending in a multiset, all different in an unordered
set. -/
def elemsOrdered (env : Env) : SeqKind → List Val → Prop
  | .back, _ => True
  | .sorted c, vs => vs.Pairwise (fun a b => env.less c a b = true)
  | .multi c, vs => vs.Pairwise (fun a b => env.less c b a = false)
  | .hashed c, vs => vs.Pairwise (fun a b => env.less c a b = false)

section
variable (env : Env) (marker : Bytes)

mutual
/-- A fresh object to import into: containers and optionals are empty, arrays, tuples and objects have their
shape; nothing is asked of scalars and pointers. -/
def Fresh : Ty → Val → Prop
  | .seq _ _, .list [] => True
  | .seq _ _, _ => False
  | .arr n t, .list vs => vs.length = n ∧ FreshList t vs
  | .arr _ _, _ => False
  | .smap _, .dict [] => True
  | .smap _, _ => False
  | .mmap _, .dict [] => True
  | .mmap _, _ => False
  | .umap _, .dict [] => True
  | .umap _, _ => False
  | .opt _, .none => True
  | .opt _, _ => False
  | .named i, .obj ps fs =>
    match env.defs i with
    | .cls ⟨.mk dps ms _, _, _⟩ => FreshOwn ms fs ∧ FreshParents dps ps
    | .tuple _ => False
    | _ => True
  | .named i, .list vs =>
    match env.defs i with
    | .cls _ => False
    | .tuple ts => FreshTuple ts vs
    | _ => True
  | .named i, _ =>
    match env.defs i with
    | .cls _ => False
    | .tuple _ => False
    | _ => True
  | _, _ => True
def FreshList : Ty → List Val → Prop
  | _, [] => True
  | t, v :: vs => Fresh t v ∧ FreshList t vs
def FreshTuple : List Ty → List Val → Prop
  | [], [] => True
  | t :: ts, v :: vs => Fresh t v ∧ FreshTuple ts vs
  | _, _ => False
def FreshOwn : List Member → List Val → Prop
  | [], [] => True
  | m :: ms, v :: vs => Fresh m.ty v ∧ FreshOwn ms vs
  | _, _ => False
def FreshParents : List StructDef → List Val → Prop
  | [], [] => True
  | .mk dps ms _ :: ds, .obj ps fs :: vs => FreshOwn ms fs ∧ FreshParents dps ps ∧ FreshParents ds vs
  | _, _ => False
end

mutual
/-- What comes back: the value, except that members which are not shown keep the value they have in the fresh
object (for objects created on the way: in a value initialised one). `restored ty old v`. -/
def restored : Ty → Val → Val → Val
  | .seq _ t, _, .list vs => .list (restoredList t vs)
  | .arr _ t, .list os, .list vs => .list (restoredFix t os vs)
  | .smap t, _, .dict kvs => .dict (restoredDict t kvs)
  | .mmap t, _, .dict kvs => .dict (restoredDict t kvs)
  | .umap t, _, .dict kvs => .dict (restoredDict t kvs)
  | .opt t, old, .some v => .some (restored t (old.contentOr (t.default env)) v)
  | .uptr t, _, .ptr v => .ptr (restored t (t.default env) v)
  | .pptr _, _, .dyn c (.obj ps fs) =>
    match env.defs c, env.dflt c with
    | .cls ⟨.mk dps ms f, _, _⟩, .obj ops ofs => .dyn c (.obj (restoredParents dps ops ps) (restoredOwn f (.obj ps fs) ms ofs fs))
    | _, _ => .dyn c (.obj ps fs)
  | .named i, old, .obj ps fs =>
    match env.defs i, old with
    | .cls ⟨.mk dps ms f, _, _⟩, .obj ops ofs => .obj (restoredParents dps ops ps) (restoredOwn f (.obj ps fs) ms ofs fs)
    | _, _ => .obj ps fs
  | .named i, old, .list vs =>
    match env.defs i, old with
    | .tuple ts, .list os => .list (restoredTuple ts os vs)
    | _, _ => .list vs
  | .named _, _, .alt c (.obj ps fs) =>
    match env.defs c, env.dflt c with
    | .cls ⟨.mk dps ms f, _, _⟩, .obj ops ofs => .alt c (.obj (restoredParents dps ops ps) (restoredOwn f (.obj ps fs) ms ofs fs))
    | _, _ => .alt c (.obj ps fs)
  | _, _, v => v
termination_by structural _ _ v => v
def restoredList : Ty → List Val → List Val
  | _, [] => []
  | t, v :: vs => restored t (t.default env) v :: restoredList t vs
termination_by structural _ vs => vs
def restoredFix : Ty → List Val → List Val → List Val
  | t, o :: os, v :: vs => restored t o v :: restoredFix t os vs
  | _, _, _ => []
termination_by structural _ _ vs => vs
def restoredTuple : List Ty → List Val → List Val → List Val
  | t :: ts, o :: os, v :: vs => restored t o v :: restoredTuple ts os vs
  | _, _, _ => []
termination_by structural _ _ vs => vs
def restoredDict : Ty → List (Bytes × Val) → List (Bytes × Val)
  | _, [] => []
  | t, (k, v) :: kvs => (k, restored t (t.default env) v) :: restoredDict t kvs
termination_by structural _ kvs => kvs
def restoredOwn (f : Option (Val → Bytes → Bool)) (self : Val) : List Member → List Val → List Val → List Val
  | m :: ms, o :: os, v :: vs => (if shown f self m v then restored m.ty o v else o) :: restoredOwn f self ms os vs
  | _, _, _ => []
termination_by structural _ _ vs => vs
def restoredParents : List StructDef → List Val → List Val → List Val
  | .mk dps ms f :: ds, .obj ops ofs :: os, .obj ps fs :: vs =>
    .obj (restoredParents dps ops ps) (restoredOwn f (.obj ps fs) ms ofs fs) :: restoredParents ds os vs
  | _, _, _ => []
termination_by structural _ _ vs => vs
end

mutual
/-- The value has the type (numbers in range, arrays of the right length, keys in order; elements of sets in order,
also without the members that are not shown) and can be brought
back from a document:
 * a pointer does not point to something that is itself represented by `null` (a null pointer behind a
   pointer cannot be told from a null pointer);
 * the class of an object behind a polymorphic pointer is registered under its name, derived from the static
   class and uses the same marker; a variant distinguishes its alternatives by name under one marker;
 * a class with its own type field name is only used behind polymorphic pointers and in variants (as a plain
   value it is written with a type field that it does not know itself). -/
def Storable : Ty → Val → Prop
  | .int k, .int i => InRange k i
  | .flt f, .flt x => IsFlt f x
  | .bool, .bool _ => True
  | .str, .str _ => True
  | .seq k t, .list vs => elemsOrdered env k (restoredList env t vs) ∧ StorableList t vs
  | .arr n t, .list vs => vs.length = n ∧ StorableList t vs
  | .smap t, .dict kvs => keysOrdered .sorted (kvs.map Prod.fst) ∧ StorableDict t kvs
  | .mmap t, .dict kvs => keysOrdered .multi (kvs.map Prod.fst) ∧ StorableDict t kvs
  | .umap t, .dict kvs => keysOrdered .unordered (kvs.map Prod.fst) ∧ StorableDict t kvs
  | .opt _, .none => True
  | .opt t, .some v => Storable t v
  | .uptr _, .null => True
  | .uptr t, .ptr v => nullable t = false ∧ Storable t v
  | .pptr _, .null => True
  | .pptr b, .dyn c (.obj ps fs) =>
    match env.defs c with
    | .cls ⟨.mk dps ms _, name, _⟩ => env.registry.lookup name = some c ∧ env.derives c b = true ∧
        polyMarker env marker c = polyMarker env marker b ∧ StorableOwn ms fs ∧ StorableParents dps ps
    | _ => False
  | .named i, .obj ps fs =>
    match env.defs i with
    | .cls ⟨.mk dps ms _, _, field⟩ => field = none ∧ StorableOwn ms fs ∧ StorableParents dps ps
    | _ => False
  | .named i, .list vs =>
    match env.defs i with
    | .tuple ts => StorableTuple ts vs
    | _ => False
  | .named i, .enum e =>
    match env.defs i with
    | .enum table => ∃ name, (e, name) ∈ table
    | _ => False
  | .named i, .alt c (.obj ps fs) =>
    match env.defs i with
    | .variant alts => c ∈ alts ∧
        match env.defs c with
        | .cls ⟨.mk dps ms _, name, _⟩ => polyMarker env marker c = polyMarker env marker (alts.headD 0) ∧
            (∀ a d, a ∈ alts → env.defs a = .cls d → d.serName = name → a = c) ∧ StorableOwn ms fs ∧ StorableParents dps ps
        | _ => False
    | _ => False
  | _, _ => False
def StorableList : Ty → List Val → Prop
  | _, [] => True
  | t, v :: vs => Storable t v ∧ StorableList t vs
def StorableTuple : List Ty → List Val → Prop
  | [], [] => True
  | t :: ts, v :: vs => Storable t v ∧ StorableTuple ts vs
  | _, _ => False
def StorableDict : Ty → List (Bytes × Val) → Prop
  | _, [] => True
  | t, (_, v) :: kvs => Storable t v ∧ StorableDict t kvs
def StorableOwn : List Member → List Val → Prop
  | [], [] => True
  | m :: ms, v :: vs => Storable m.ty v ∧ StorableOwn ms vs
  | _, _ => False
def StorableParents : List StructDef → List Val → Prop
  | [], [] => True
  | .mk dps ms _ :: ds, .obj ps fs :: vs => StorableOwn ms fs ∧ StorableParents dps ps ∧ StorableParents ds vs
  | _, _ => False
end

/-- No class of the hierarchy has a user filter. -/
def NoFilter : StructDef → Prop
  | .mk ps _ f => f = none ∧ all ps
where all : List StructDef → Prop
  | [] => True
  | p :: ps => NoFilter p ∧ all ps

/-- The types of a program are usable for round trips: within each class (with its parents) the names used in
documents are distinct, the names in an enumeration table are distinct, and value initialised objects are
fresh. -/
structure GoodTypes : Prop where
  names : ∀ i c, env.defs i = .cls c → ((allMembers c.traits).map Member.out).Nodup
  enums : ∀ i table, env.defs i = .enum table → (table.map Prod.snd).Nodup
  fresh : ∀ i, Fresh env (.named i) (env.dflt i)

/-- What Exact mode needs in addition: no renamed members, no filters, no optional members (C18). -/
def ExactTypes : Prop := ∀ i c, env.defs i = .cls c → NoFilter c.traits ∧ ∀ m ∈ allMembers c.traits, m.name = m.out ∧ ∀ t, m.ty ≠ .opt t

end
end Thors.Spec
