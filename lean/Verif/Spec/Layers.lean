import Verif.Spec.Tree
import Verif.Spec.Positions
import Verif.Spec.Sets
/-
Specification for C100 and C101: documents read one after the other into one object.
-/
namespace Thors.Spec
open Thors

/-- Types an object or array is added to: classes, associative containers and sequences, and optionals of them. (Pointers
and variants are made anew, arrays and tuples filled from the start.) -/
def Accumulates (env : Env) : Ty → Prop
  | .seq _ _ | .smap _ | .mmap _ | .umap _ => True
  | .opt t => Accumulates env t
  | .named i =>
    match env.defs i with
    | .cls _ => True
    | _ => False
  | _ => False

/-- One document with the members, or elements, of two. -/
def joined {K X : Type} : Tr K X → Tr K X → Option (Tr K X)
  | .obj ms, .obj ms' => some (.obj (ms ++ ms'))
  | .arr ts, .arr ts' => some (.arr (ts ++ ts'))
  | _, _ => none

/-- Types whose values do not grow when a document is read twice: nothing that is read where it lies is a sequence, a multiset or a
multimap. Sets need a proper comparison. What is behind pointers, in sets and in an unordered map is made anew and may be anything. `ok`
says which of the named types are such types. -/
def Settles (env : Env) (ok : Nat → Prop) : Ty → Prop
  | .int _ | .flt _ | .bool | .str | .umap _ | .uptr _ | .pptr _ => True
  | .seq (.sorted c) _ => StrictWeak (env.less c)
  | .seq (.hashed c) _ => Equality (env.less c)
  | .seq .back _ | .seq (.multi _) _ | .mmap _ => False
  | .arr _ t | .smap t | .opt t => Settles env ok t
  | .named i => ok i

/-- `ok` is right about the named types. -/
def SettlesAll (env : Env) (ok : Nat → Prop) : Prop :=
  ∀ i, ok i → match env.defs i with
    | .cls d => ∀ m ∈ allMembers d.traits, Settles env ok m.ty
    | .tuple ts => ∀ t ∈ ts, Settles env ok t
    | .enum _ | .variant _ => True

mutual
/-- No object in the document has two members with the same name. -/
def NoRepeats {K X : Type} (sem : ScalarSem K X) : Tr K X → Prop
  | .scalar _ => True
  | .arr ts => NoRepeatsL sem ts
  | .obj ms => (ms.map fun m => sem.key m.1).Nodup ∧ NoRepeatsM sem ms

/-- No document in the list has such an object. -/
def NoRepeatsL {K X : Type} (sem : ScalarSem K X) : List (Tr K X) → Prop
  | [] => True
  | t :: ts => NoRepeats sem t ∧ NoRepeatsL sem ts

/-- No member has such an object. -/
def NoRepeatsM {K X : Type} (sem : ScalarSem K X) : List (K × Tr K X) → Prop
  | [] => True
  | (_, t) :: ms => NoRepeats sem t ∧ NoRepeatsM sem ms
end

end Thors.Spec
