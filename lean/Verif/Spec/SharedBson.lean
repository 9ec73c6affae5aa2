import Verif.Spec.Shared
import Verif.Spec.BsonDoc
import Verif.Model.SharedBson
import Verif.Spec.Ints
/-
Specification: which object graphs have a BSON size that is computed correctly, and which may be at the top of a BSON document.
-/
namespace Thors.Spec
open Thors StrIn BPrint

/-- The size of the parts without shared pointers is computed correctly (`SizeKnown`, C26); `p` tells whether the value is behind a
pointer. -/
def SSized (S : SEnv) (info : SizeInfo) (p : Bool) : STy → SVal → Prop
  | .plain t, .plain v => SizeKnown S.env info p t v
  | .vec t, .list vs => all t vs
  | .cls c, .obj fs => members (S.classes c) fs
  | _, _ => True
where
  all : STy → List SVal → Prop
  | _, [] => True
  | t, v :: vs => SSized S info false t v ∧ all t vs
  members : List (Bytes × STy) → List SVal → Prop
  | (_, t) :: ms, v :: fs => SSized S info false t v ∧ members ms fs
  | _, _ => True

/-- What may be at the top of a BSON document: not a null pointer, and a shared pointer only if what it points to is written as a
document too. -/
def STopLevel (S : SEnv) : STy → SVal → Prop
  | .plain t, .plain v => TopLevel S.env t v
  | .shared t, .handle _ a => a ≠ none ∧ sbase S t = .Map
  | _, _ => True

/-- The graph with the root `v` and the memory `H`, and the graph with the root `v'` and the objects of `heap`, are the same: `φ` says
which object stands for which; the roots and the objects hold the same data and the same handles; two objects are the same only if
they were; and there are no others. -/
def SameGraph (H : Nat → SVal) (v v' : SVal) (heap : List SVal) : Prop :=
  ∃ φ : Nat → Nat, v' = rename φ v ∧ (∀ a, Reach H v a → heap[φ a]? = some (rename φ (H a))) ∧
    (∀ a b, Reach H v a → Reach H v b → φ a = φ b → a = b) ∧ (∀ i, i < heap.length → ∃ a, Reach H v a ∧ φ a = i)

/-- Integers of at most 64 bits. -/
def usualAtom : Atom → Prop
  | .int k _ => usual k
  | _ => True

end Thors.Spec
