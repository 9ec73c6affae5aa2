import Verif.Spec.Bson
import Verif.Model.BsonPrinter
import Verif.Spec.Float
/-
Specification: the BSON document that represents a document; for which values the sizes can be known in advance.
-/
namespace Thors.Spec
open Thors StrIn

/-- The number with the same 32 low bits, as a signed number; likewise with 64. -/
def signed32 (i : Int) : Int := (i + 2 ^ 31) % 2 ^ 32 - 2 ^ 31
def signed64 (i : Int) : Int := (i + 2 ^ 63) % 2 ^ 64 - 2 ^ 63

/-- Integers of 64 bit are stored as int64, smaller ones as int32. BSON integers are signed: an unsigned
number is stored as the signed number with the same bits. Floating point values are converted to `double` and stored as
64 bits. -/
def bscalar : Atom → BScalar
  | .null => .null
  | .bool b => .bool b
  | .int k i => if k.bits = 64 then .int64 (signed64 i) else .int32 (signed32 i)
  | .flt f x => .fixed .double (le 8 (doubleBits (castFlt f f64 x) : Nat))
  | .str s => .str s

/-- The BSON tree of a document. -/
def btree : Doc → BTree
  | .scalar a => .scalar (bscalar a)
  | .arr ts => .arr (elems ts)
  | .obj ms => .obj (members ms)
where
  elems : List Doc → List BTree
  | [] => []
  | t :: ts => btree t :: elems ts
  members : List (Bytes × Doc) → List (Bytes × BTree)
  | [] => []
  | (k, t) :: ms => (k, btree t) :: members ms

/-- An integer type with 64 or at most 32 bits; a string without a character that JSON would escape. -/
def plainAtom : Atom → Prop
  | .int k _ => 0 < k.bits ∧ k.bits ≤ 32 ∨ k.bits = 64
  | .str s => cleanKey s
  | _ => True

/-- Floating point values that are a value of type `double`: those of the types `float` and `double`; of other types those that are a
`double`, converted. -/
def doubleAtom : Atom → Prop
  | .flt f x => f = f32 ∨ f = f64 ∨ f = f80 ∧ ∃ y, IsFlt f64 y ∧ x = castFlt f64 f80 y
  | _ => True

/-- Members that are not renamed and no empty optional among them. -/
def NoEmpty : List Member → List Val → Prop
  | m :: ms, v :: vs => m.name = m.out ∧ ¬ ((∃ t, m.ty = .opt t) ∧ v = .none) ∧ NoEmpty ms vs
  | _, _ => True

section
variable (env : Env) (info : BPrint.SizeInfo)

mutual
/-- The ways of using classes for which the size computation looks at the same things as the printer (the flag:
directly behind a pointer, other than a polymorphic one).
 * Behind a polymorphic pointer: the class has the virtual functions.
 * In a variant: the class has `ThorsAnvil_TypeFieldName` and no virtual functions.
 * As a plain value: the class has no virtual functions, or it is not behind a pointer and has no type field
   name.
 * A `std::pair` has no empty optional. -/
def SizeKnown : Bool → Ty → Val → Prop
  | _, .seq _ t, .list vs => SizeKnownList t vs
  | _, .arr _ t, .list vs => SizeKnownList t vs
  | _, .smap t, .dict kvs => SizeKnownDict t kvs
  | _, .mmap t, .dict kvs => SizeKnownDict t kvs
  | _, .umap t, .dict kvs => SizeKnownDict t kvs
  | p, .opt t, .some v => SizeKnown p t v
  | _, .uptr t, .ptr v => SizeKnown true t v
  | _, .pptr _, .dyn c (.obj ps fs) =>
    match env.defs c with
    | .cls ⟨.mk dps ms _, _, _⟩ => info.virt c = true ∧ info.pair c = false ∧ SizeKnownOwn ms fs ∧ SizeKnownParents dps ps
    | _ => True
  | p, .named i, .obj ps fs =>
    match env.defs i with
    | .cls ⟨.mk dps ms f, _, field⟩ =>
      (if info.pair i then f = none ∧ dps = [] ∧ field = none ∧ ms.length = 2 ∧ NoEmpty ms fs
       else info.virt i = false ∨ p = false ∧ field = none) ∧ SizeKnownOwn ms fs ∧ SizeKnownParents dps ps
    | _ => True
  | _, .named i, .list vs =>
    match env.defs i with
    | .tuple ts => SizeKnownTuple ts vs
    | _ => True
  | _, .named _, .alt c (.obj ps fs) =>
    match env.defs c with
    | .cls ⟨.mk dps ms _, _, field⟩ => info.virt c = false ∧ info.pair c = false ∧ field.isSome ∧ SizeKnownOwn ms fs ∧ SizeKnownParents dps ps
    | _ => True
  | _, _, _ => True
termination_by structural _ _ v => v
def SizeKnownList : Ty → List Val → Prop
  | _, [] => True
  | t, v :: vs => SizeKnown false t v ∧ SizeKnownList t vs
termination_by structural _ vs => vs
def SizeKnownTuple : List Ty → List Val → Prop
  | t :: ts, v :: vs => SizeKnown false t v ∧ SizeKnownTuple ts vs
  | _, _ => True
termination_by structural _ vs => vs
def SizeKnownDict : Ty → List (Bytes × Val) → Prop
  | _, [] => True
  | t, (_, v) :: kvs => SizeKnown false t v ∧ SizeKnownDict t kvs
termination_by structural _ vs => vs
def SizeKnownOwn : List Member → List Val → Prop
  | m :: ms, v :: vs => SizeKnown false m.ty v ∧ SizeKnownOwn ms vs
  | _, _ => True
termination_by structural _ vs => vs
def SizeKnownParents : List StructDef → List Val → Prop
  | .mk dps ms _ :: ds, .obj ps fs :: vs => SizeKnownOwn ms fs ∧ SizeKnownParents dps ps ∧ SizeKnownParents ds vs
  | _, _ => True
termination_by structural _ vs => vs
end

/-- Values that can stand at the top of a BSON document: everything but optionals, variants and null pointers. -/
def TopLevel : Ty → Val → Prop
  | .opt _, _ => False
  | .uptr t, .ptr v => TopLevel t v
  | .uptr _, _ => False
  | .pptr _, .null => False
  | .named i, v => (∀ alts, env.defs i ≠ .variant alts) ∧ ∀ c w, v ≠ .alt c w
  | _, _ => True

end
end Thors.Spec
