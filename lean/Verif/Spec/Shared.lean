import Verif.Model.Shared
import Verif.Spec.RoundTrip
import Verif.Spec.Layout
/-
Specification: object graphs built with shared pointers. A graph is a value (the root) and a memory `H` with
the object at each address.
-/
namespace Thors.Spec
open Thors StrIn

/-- The addresses the handles inside a value point to. -/
def targets : SVal → List Nat
  | .plain _ => []
  | .obj fs => all fs
  | .list vs => all vs
  | .handle _ none => []
  | .handle _ (some a) => [a]
  | .unset => []
where
  all : List SVal → List Nat
  | [] => []
  | v :: vs => targets v ++ all vs

/-- The addresses at which the handles inside a value live. -/
def locs : SVal → List Nat
  | .plain _ => []
  | .obj fs => all fs
  | .list vs => all vs
  | .handle l _ => [l]
  | .unset => []
where
  all : List SVal → List Nat
  | [] => []
  | v :: vs => locs v ++ all vs

/-- The same value, with every address `a` replaced by `φ a` (where handles live is forgotten). -/
def rename (φ : Nat → Nat) : SVal → SVal
  | .plain v => .plain v
  | .obj fs => .obj (all fs)
  | .list vs => .list (all vs)
  | .handle _ none => .handle 0 none
  | .handle _ (some a) => .handle 0 (some (φ a))
  | .unset => .unset
where
  all : List SVal → List SVal
  | [] => []
  | v :: vs => rename φ v :: all vs

section
variable (H : Nat → SVal)

/-- The objects that can be reached from a value. -/
inductive Reach (v : SVal) : Nat → Prop
  | direct {a : Nat} : a ∈ targets v → Reach v a
  | step {a b : Nat} : Reach v a → b ∈ targets (H a) → Reach v b

/-- There is no cycle among the objects reached from a value: they can be ranked. -/
def NoCycles (v : SVal) : Prop :=
  ∃ rank : Nat → Nat, ∀ a b, Reach H v a → b ∈ targets (H a) → rank b < rank a

/-- The handles in the root and in the objects are different C++ objects. -/
structure Separate (v : SVal) : Prop where
  root : (locs v).Nodup
  each : ∀ a, Reach H v a → (locs (H a)).Nodup
  rootEach : ∀ a, Reach H v a → ∀ l ∈ locs v, l ∉ locs (H a)
  pair : ∀ a b, Reach H v a → Reach H v b → a ≠ b → ∀ l ∈ locs (H a), l ∉ locs (H b)
end

/-- Values of the type may be represented by `null`. -/
def snullable : STy → Bool
  | .plain t => nullable t
  | .shared _ => true
  | _ => false

section
variable (S : SEnv) (marker : Bytes) (cell : Nat → STy) (okKey : Bytes → Prop) (okAtom : Atom → Prop)

/-- The value has the type; its parts without shared pointers have documents and can be brought back from them;
every handle to an address `a` is a pointer to the type `cell a` (one type for each object), which is not
itself represented by `null`, and the address is a non-negative `intmax_t`. -/
def STyped : STy → SVal → Prop
  | .plain t, .plain v => Storable S.env marker t v ∧
      ∃ d, docOf S.env marker t v = .ok d ∧ AllKeys okKey d ∧ AllScalars okAtom d
  | .vec t, .list vs => all t vs
  | .cls c, .obj fs => members (S.classes c) fs
  | .shared _, .handle _ none => True
  | .shared t, .handle _ (some a) => cell a = t ∧ snullable t = false ∧ a < 2 ^ 63
  | _, _ => False
where
  all : STy → List SVal → Prop
  | _, [] => True
  | t, v :: vs => STyped t v ∧ all t vs
  members : List (Bytes × STy) → List SVal → Prop
  | [], [] => True
  | (_, t) :: ms, v :: fs => STyped t v ∧ members ms fs
  | _, _ => False

/-- The members of each class have different names. -/
def GoodClasses : Prop := ∀ c, ((S.classes c).map Prod.fst).Nodup

variable (H : Nat → SVal)

mutual
/-- The document of a value, where `done` are the objects whose data was already written before: `SDoc t v done d
done'` says that `d` is the document and that afterwards the objects in `done'` are written. A handle is `null`, or
an object with the address and, the first time only, the data of what it points to. -/
inductive SDoc : STy → SVal → List Nat → Doc → List Nat → Prop
  | plain {t v done d} : docOf S.env marker t v = .ok d → SDoc (.plain t) (.plain v) done d done
  | list {t vs done ds done'} : SDocs t vs done ds done' → SDoc (.vec t) (.list vs) done (.arr ds) done'
  | obj {c fs done ms done'} : SDocMembers (S.classes c) fs done ms done' → SDoc (.cls c) (.obj fs) done (.obj ms) done'
  | null {t l done} : SDoc (.shared t) (.handle l none) done (.scalar .null) done
  | again {t l a done} : a ∈ done →
      SDoc (.shared t) (.handle l (some a)) done (.obj [(infoName, .scalar (.int intmax a))]) done
  | first {t l a done d done'} : a ∉ done' → SDoc t (H a) done d done' →
      SDoc (.shared t) (.handle l (some a)) done (.obj [(infoName, .scalar (.int intmax a)), (infoData, d)]) (a :: done')
inductive SDocs : STy → List SVal → List Nat → List Doc → List Nat → Prop
  | nil {t done} : SDocs t [] done [] done
  | cons {t v vs done d done' ds done''} : SDoc t v done d done' → SDocs t vs done' ds done'' →
      SDocs t (v :: vs) done (d :: ds) done''
inductive SDocMembers : List (Bytes × STy) → List SVal → List Nat → List (Bytes × Doc) → List Nat → Prop
  | nil {done} : SDocMembers [] [] done [] done
  | cons {n t ms v fs done d done' ds done''} : SDoc t v done d done' → SDocMembers ms fs done' ds done'' →
      SDocMembers ((n, t) :: ms) (v :: fs) done ((n, d) :: ds) done''
end
end

end Thors.Spec
