import Verif.Spec.JsonText
/-
Specification: the document that represents a C++ value, as a tree, independently of any format; and what it
means that a JSON text tree denotes such a document.
-/
namespace Thors.Spec
open Thors StrIn

/-- The scalars of a document: `null`, booleans, numbers (with the C++ type they come from), strings. -/
inductive Atom
  | null
  | bool (b : Bool)
  | int (k : IntKind) (i : Int)
  | flt (f : FKind) (x : Flt)
  | str (s : Bytes)
  deriving DecidableEq, Repr

/-- A document to be written: keys are byte strings. -/
abbrev Doc := Tr Bytes Atom

/-- A member is written unless the user's filter hides it; where the user gave no filter, exactly the empty
optionals are hidden. -/
def shown (filter : Option (Val → Bytes → Bool)) (self : Val) (m : Member) (v : Val) : Prop :=
  match filter with
  | some f => f self m.name = true
  | none => ¬ ((∃ t, m.ty = .opt t) ∧ v = .none)

instance (filter : Option (Val → Bytes → Bool)) (self : Val) (m : Member) (v : Val) : Decidable (shown filter self m v) := by
  unfold shown
  split
  · infer_instance
  · cases m.ty <;> cases v <;> simp <;> infer_instance

section
variable (env : Env) (marker : Bytes)

mutual
/-- The document of a value of a type. The result is an exception for what cannot be represented: an empty
optional outside of a class member, an enumeration value without a name. (A value that does not have the type
is `ub`.)
 * Sequence containers, arrays and tuples are arrays; associative containers are objects.
 * Null pointers are `null`; other pointers and engaged optionals are represented by what they hold.
 * An object of a class is an object with its shown own members, then those of its parents. Behind a
   polymorphic pointer or in a variant, the class name comes first, under the marker; also where the class
   has its own type field name. -/
def docOf : Ty → Val → Res Doc
  | .int k, .int i => .ok (.scalar (.int k i))
  | .flt f, .flt x => .ok (.scalar (.flt f x))
  | .bool, .bool b => .ok (.scalar (.bool b))
  | .str, .str s => .ok (.scalar (.str s))
  | .seq _ t, .list vs => do return .arr (← docList t vs)
  | .arr _ t, .list vs => do return .arr (← docList t vs)
  | .smap t, .dict kvs => do return .obj (← docDict t kvs)
  | .mmap t, .dict kvs => do return .obj (← docDict t kvs)
  | .umap t, .dict kvs => do return .obj (← docDict t kvs)
  | .opt t, .some v => docOf t v
  | .opt _, .none => throwStd
  | .uptr _, .null => .ok (.scalar .null)
  | .uptr t, .ptr v => docOf t v
  | .pptr _, .null => .ok (.scalar .null)
  | .pptr _, .dyn c (.obj ps fs) =>
    match env.defs c with
    | .cls ⟨.mk dps ms f, name, _⟩ => do
      let own ← docOwn f (.obj ps fs) ms fs
      let up ← docParents dps ps
      return .obj ((polyMarker env marker c, .scalar (.str name)) :: (own ++ up))
    | _ => .ub
  | .named i, .obj ps fs =>
    match env.defs i with
    | .cls ⟨.mk dps ms f, name, field⟩ => do
      let own ← docOwn f (.obj ps fs) ms fs
      let up ← docParents dps ps
      return .obj ((if field.isSome then [(polyMarker env marker i, .scalar (.str name))] else []) ++ (own ++ up))
    | _ => .ub
  | .named i, .list vs =>
    match env.defs i with
    | .tuple ts => do return .arr (← docTuple ts vs)
    | _ => .ub
  | .named i, .enum e =>
    match env.defs i with
    | .enum table =>
      match table.lookup e with
      | some s => .ok (.scalar (.str s))
      | none => throwStd
    | _ => .ub
  | .named _, .alt c (.obj ps fs) =>
    match env.defs c with
    | .cls ⟨.mk dps ms f, name, _⟩ => do
      let own ← docOwn f (.obj ps fs) ms fs
      let up ← docParents dps ps
      return .obj ((polyMarker env marker c, .scalar (.str name)) :: (own ++ up))
    | _ => .ub
  | _, _ => .ub
/-- Elements of one type. -/
def docList : Ty → List Val → Res (List Doc)
  | _, [] => .ok []
  | t, v :: vs => do
    let a ← docOf t v
    let b ← docList t vs
    return a :: b
/-- Elements of a tuple. -/
def docTuple : List Ty → List Val → Res (List Doc)
  | [], [] => .ok []
  | t :: ts, v :: vs => do
    let a ← docOf t v
    let b ← docTuple ts vs
    return a :: b
  | _, _ => .ub
/-- Members of an associative container. -/
def docDict : Ty → List (Bytes × Val) → Res (List (Bytes × Doc))
  | _, [] => .ok []
  | t, (k, v) :: kvs => do
    let a ← docOf t v
    let b ← docDict t kvs
    return (k, a) :: b
/-- The shown own members of an object, under their document names. -/
def docOwn (f : Option (Val → Bytes → Bool)) (self : Val) : List Member → List Val → Res (List (Bytes × Doc))
  | [], [] => .ok []
  | m :: ms, v :: vs =>
    if shown f self m v then do
      let a ← docOf m.ty v
      let b ← docOwn f self ms vs
      return (m.out, a) :: b
    else docOwn f self ms vs
  | _, _ => .ub
/-- The members of the parents: for each its own, then its parents'. -/
def docParents : List StructDef → List Val → Res (List (Bytes × Doc))
  | [], [] => .ok []
  | .mk dps ms f :: ds, .obj ps fs :: vs => do
    let own ← docOwn f (.obj ps fs) ms fs
    let up ← docParents dps ps
    let b ← docParents ds vs
    return own ++ up ++ b
  | _, _ => .ub
end
end

/-- How deep containers are nested: 0 for a scalar. -/
def nesting {K X : Type} : Tr K X → Nat
  | .scalar _ => 0
  | .arr ts => 1 + elems ts
  | .obj ms => 1 + members ms
where
  elems : List (Tr K X) → Nat
  | [] => 0
  | t :: ts => max (nesting t) (elems ts)
  members : List (K × Tr K X) → Nat
  | [] => 0
  | (_, t) :: ms => max (nesting t) (members ms)

/-- Every key in the tree has the property. -/
def AllKeys {K X : Type} (P : K → Prop) : Tr K X → Prop
  | .scalar _ => True
  | .arr ts => elems ts
  | .obj ms => members ms
where
  elems : List (Tr K X) → Prop
  | [] => True
  | t :: ts => AllKeys P t ∧ elems ts
  members : List (K × Tr K X) → Prop
  | [] => True
  | (k, t) :: ms => P k ∧ AllKeys P t ∧ members ms

/-- Every scalar in the tree has the property. -/
def AllScalars {K X : Type} (P : X → Prop) : Tr K X → Prop
  | .scalar x => P x
  | .arr ts => elems ts
  | .obj ms => members ms
where
  elems : List (Tr K X) → Prop
  | [] => True
  | t :: ts => AllScalars P t ∧ elems ts
  members : List (K × Tr K X) → Prop
  | [] => True
  | (_, t) :: ms => AllScalars P t ∧ members ms

/-- A scalar that is not an infinity or NaN. -/
def finiteAtom : Atom → Prop
  | .flt _ x => finite x
  | _ => True

/-- A scalar that six significant digits describe, if it is a floating point value. -/
def sixAtom : Atom → Prop
  | .flt f x => Six f x
  | _ => True

/-- A JSON scalar denotes a scalar of a document. Floating point values are written with six digits. -/
def ScalarDenotes : JScalar → Atom → Prop
  | .null, .null => True
  | .bool b, .bool b' => b = b'
  | .int _ i, .int _ i' => i = i'
  | .int t i, .flt f x => ∃ y, (JScalar.int t i).number = some y ∧ Close f x y
  | .frac _ y, .flt f x => Close f x y
  | .str s, .str s' => s.dec = s'
  | _, _ => False

/-- A JSON tree denotes a document: same shape, same order, keys and scalars denote the given ones. -/
def Denotes : JTree → Doc → Prop
  | .scalar x, .scalar a => ScalarDenotes x a
  | .arr ts, .arr ds => elems ts ds
  | .obj ms, .obj ds => members ms ds
  | _, _ => False
where
  elems : List JTree → List Doc → Prop
  | [], [] => True
  | t :: ts, d :: ds => Denotes t d ∧ elems ts ds
  | _, _ => False
  members : List (JStr × JTree) → List (Bytes × Doc) → Prop
  | [], [] => True
  | (k, t) :: ms, (k', d) :: ds => k.dec = k' ∧ Denotes t d ∧ members ms ds
  | _, _ => False

/-- A key that stands for itself between quotes: no control character, no quote, no backslash. -/
def cleanKey (k : Bytes) : Prop := ∀ c ∈ k, 0x20 ≤ c.toNat ∧ c ≠ 0x22 ∧ c ≠ 0x5C

instance (k : Bytes) : Decidable (cleanKey k) := by unfold cleanKey; infer_instance

end Thors.Spec
