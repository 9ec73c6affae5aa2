import Verif.Spec.Shared
import Verif.Spec.Typed
/-
Specification: what an import may make out of shared pointers.
-/
namespace Thors.Spec
open Thors StrIn

section
variable (S : SEnv) (there : Nat → STy → Prop)

/-- The value has the type, in a memory where `there a u` says that there is an object of the type `u` at the address `a`: its parts
without shared pointers are values of their types, and every shared pointer is null or points to an object of exactly the type the
pointer was declared for. A member that no document mentioned has the value its class gives it (`unset`). -/
def SHas : STy → SVal → Prop
  | .plain t, .plain v => HasType S.env t v
  | .vec t, .list vs => all t vs
  | .cls c, .obj fs => members (S.classes c) fs
  | .shared _, .handle _ none => True
  | .shared t, .handle _ (some a) => there a t
  | _, _ => False
where
  all : STy → List SVal → Prop
  | _, [] => True
  | t, v :: vs => SHas t v ∧ all t vs
  members : List (Bytes × STy) → List SVal → Prop
  | [], [] => True
  | (_, _) :: ms, .unset :: fs => members ms fs
  | (_, t) :: ms, v :: fs => SHas t v ∧ members ms fs
  | _, _ => False
end

/-- The memory that a list of objects is. Nothing is at the addresses of deleted objects. -/
def memory (heap : List SVal) (a : Nat) : SVal := heap.getD a .unset

/-- What an import may leave: objects with types such that every object, and the root, is a value of its type; and no
object can be reached from itself. -/
def WellBuilt (S : SEnv) (t : STy) (root : SVal) (heap : List SVal) : Prop :=
  (∃ mem : Nat → Option STy, (∀ a u, mem a = some u → SHas S (fun b w => mem b = some w) u (memory heap a)) ∧ SHas S (fun b w => mem b = some w) t root) ∧
  NoCycles (memory heap) root

/-- The objects that were made and not deleted are those that were handed to a shared pointer, which deletes them in the end. So no
object is lost, and none is deleted twice. -/
def AllOwned (st : Loaded) : Prop := ∀ a v, st.heap[a]? = some v → (v ≠ .unset ↔ ∃ n t, (n, t, some a) ∈ st.saved)

end Thors.Spec
