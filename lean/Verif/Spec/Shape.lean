import Verif.Model.Types
/-
Specification: the values a C++ program can hand to an exporter.
-/
namespace Thors.Spec
open Thors StrIn

mutual
/-- What the C++ type system guarantees of a value: no more. Of an enumerator it guarantees nothing (`static_cast` makes any value of the underlying type):
`E table n` says what is assumed of the values of the enumerations in it. -/
def ValShape (env : Env) (E : List (Int × Bytes) → Int → Prop) : Ty → Val → Prop
  | .int _, .int _ => True
  | .flt _, .flt _ => True
  | .bool, .bool _ => True
  | .str, .str _ => True
  | .seq _ t, .list vs => ValShapes env E t vs
  | .arr _ t, .list vs => ValShapes env E t vs
  | .smap t, .dict kvs => DictShape env E t kvs
  | .mmap t, .dict kvs => DictShape env E t kvs
  | .umap t, .dict kvs => DictShape env E t kvs
  | .opt _, .none => True
  | .opt t, .some v => ValShape env E t v
  | .uptr _, .null => True
  | .uptr t, .ptr v => ValShape env E t v
  | .pptr _, .null => True
  | .pptr _, .dyn c (.obj ps fs) =>
    match env.defs c with
    | .cls ⟨.mk dps ms _, _, _⟩ => OwnShape env E ms fs ∧ ParentShape env E dps ps
    | _ => False
  | .named i, .obj ps fs =>
    match env.defs i with
    | .cls ⟨.mk dps ms _, _, _⟩ => OwnShape env E ms fs ∧ ParentShape env E dps ps
    | _ => False
  | .named i, .list vs =>
    match env.defs i with
    | .tuple ts => TupleShape env E ts vs
    | _ => False
  | .named i, .enum n =>
    match env.defs i with
    | .enum table => E table n
    | _ => False
  | .named _, .alt c (.obj ps fs) =>
    match env.defs c with
    | .cls ⟨.mk dps ms _, _, _⟩ => OwnShape env E ms fs ∧ ParentShape env E dps ps
    | _ => False
  | _, _ => False
termination_by structural _ v => v
/-- All elements. -/
def ValShapes (env : Env) (E : List (Int × Bytes) → Int → Prop) : Ty → List Val → Prop
  | _, [] => True
  | t, v :: vs => ValShape env E t v ∧ ValShapes env E t vs
termination_by structural _ vs => vs
/-- All mapped values. -/
def DictShape (env : Env) (E : List (Int × Bytes) → Int → Prop) : Ty → List (Bytes × Val) → Prop
  | _, [] => True
  | t, (_, v) :: kvs => ValShape env E t v ∧ DictShape env E t kvs
termination_by structural _ kvs => kvs
/-- The elements of a tuple. -/
def TupleShape (env : Env) (E : List (Int × Bytes) → Int → Prop) : List Ty → List Val → Prop
  | [], [] => True
  | t :: ts, v :: vs => ValShape env E t v ∧ TupleShape env E ts vs
  | _, _ => False
termination_by structural _ vs => vs
/-- The members of a class. -/
def OwnShape (env : Env) (E : List (Int × Bytes) → Int → Prop) : List Member → List Val → Prop
  | [], [] => True
  | m :: ms, v :: vs => ValShape env E m.ty v ∧ OwnShape env E ms vs
  | _, _ => False
termination_by structural _ vs => vs
/-- The bases of a class. -/
def ParentShape (env : Env) (E : List (Int × Bytes) → Int → Prop) : List StructDef → List Val → Prop
  | [], [] => True
  | .mk dps ms _ :: ds, .obj ps fs :: vs => OwnShape env E ms fs ∧ ParentShape env E dps ps ∧ ParentShape env E ds vs
  | _, _ => False
termination_by structural _ vs => vs
end

/-- Any value of the type. -/
def OfType (env : Env) : Ty → Val → Prop := ValShape env fun _ _ => True

/-- Any value of the type in which all enumerators have a name. -/
def NamedOfType (env : Env) : Ty → Val → Prop := ValShape env fun table n => n ∈ table.map Prod.fst

end Thors.Spec
