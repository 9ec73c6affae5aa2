import Verif.Spec.Doc
import Verif.Model.BsonPrinter
/-
Specification: the values for which `jsonStreanSize` looks at the same things as the JSON printer.
-/
namespace Thors.Spec
open Thors StrIn

section
variable (env : Env) (info : BPrint.SizeInfo)

mutual
/-- The flag is true at the top and behind a pointer.
 * No associative containers (other than empty ones) and no `std::pair`.
 * A class with virtual functions that is used as a plain value, not behind a polymorphic pointer: it has a type field name exactly if
   the flag is true.
 * In a variant: the class has virtual functions and the flag is true, or it has no virtual functions and a type field name. -/
def JSizeKnown : Bool → Ty → Val → Prop
  | _, .seq _ t, .list vs => JSizeKnownList t vs
  | _, .arr _ t, .list vs => JSizeKnownList t vs
  | _, .smap _, .dict kvs => kvs = []
  | _, .mmap _, .dict kvs => kvs = []
  | _, .umap _, .dict kvs => kvs = []
  | p, .opt t, .some v => JSizeKnown p t v
  | _, .uptr t, .ptr v => JSizeKnown true t v
  | _, .pptr _, .dyn c (.obj ps fs) =>
    match env.defs c with
    | .cls ⟨.mk dps ms _, _, _⟩ => JSizeKnownOwn ms fs ∧ JSizeKnownParents dps ps
    | _ => True
  | p, .named i, .obj ps fs =>
    match env.defs i with
    | .cls ⟨.mk dps ms _, _, field⟩ =>
      info.pair i = false ∧ (info.virt i = true → p = field.isSome) ∧ JSizeKnownOwn ms fs ∧ JSizeKnownParents dps ps
    | _ => True
  | _, .named i, .list vs =>
    match env.defs i with
    | .tuple ts => JSizeKnownTuple ts vs
    | _ => True
  | p, .named _, .alt c (.obj ps fs) =>
    match env.defs c with
    | .cls ⟨.mk dps ms _, _, field⟩ =>
      (if info.virt c then p = true else field.isSome = true) ∧ JSizeKnownOwn ms fs ∧ JSizeKnownParents dps ps
    | _ => True
  | _, _, _ => True
termination_by structural _ _ v => v
def JSizeKnownList : Ty → List Val → Prop
  | _, [] => True
  | t, v :: vs => JSizeKnown false t v ∧ JSizeKnownList t vs
termination_by structural _ vs => vs
def JSizeKnownTuple : List Ty → List Val → Prop
  | t :: ts, v :: vs => JSizeKnown false t v ∧ JSizeKnownTuple ts vs
  | _, _ => True
termination_by structural _ vs => vs
def JSizeKnownOwn : List Member → List Val → Prop
  | m :: ms, v :: vs => JSizeKnown false m.ty v ∧ JSizeKnownOwn ms vs
  | _, _ => True
termination_by structural _ vs => vs
def JSizeKnownParents : List StructDef → List Val → Prop
  | .mk dps ms _ :: ds, .obj ps fs :: vs => JSizeKnownOwn ms fs ∧ JSizeKnownParents dps ps ∧ JSizeKnownParents ds vs
  | _, _ => True
termination_by structural _ vs => vs
end
end

/-- Scalars whose size is computed correctly: integers smaller than `bound` that are not the least value of a type of at least 32 bits,
strings without a character that is escaped, a positive floating point zero and floating point values for which the shortest text
(`sh`) is as long as the text on a stream. -/
def sizedAtom (bound : Nat) (sh : FKind → Flt → Bytes) : Atom → Prop
  | .int k i => i.natAbs < bound ∧ (k.signed = false → 0 ≤ i) ∧ (32 ≤ k.bits → i ≠ -2 ^ (k.bits - 1))
  | .str s => cleanKey s
  | .flt f x => (∃ E, x = .fin false 0 E) ∨ (∀ s E, x ≠ .fin s 0 E) ∧ (sh f x).length = (streamText f x).length
  | _ => True

end Thors.Spec
