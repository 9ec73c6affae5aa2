import Verif.Model.Shared
import Verif.Spec.Tree
/-
Specification: what importing a document (a tree) into a type with shared pointers does. As in `Spec/Tree.lean`, nothing here
mentions tokens, buffers or positions.
-/
namespace Thors.Spec
open Thors StrIn

/-- What the objects of handles say about shared pointers that are being read: the number, and whether there were data (`some none`:
the data were `null`). -/
structure Handle where
  name : Option Int
  data : Option (Option Nat)

/-- The memory in which the object of the handle, if there was one, has been deleted: `unset` stands there. -/
def Handle.deleted (h : Handle) (st : Loaded) : Loaded :=
  match h.data with
  | some (some a) => ⟨st.saved, st.heap.set a .unset⟩
  | some none | none => st

/-- The shared pointer for a handle. With data: a pointer to the new object, which is remembered under the number. Without: the
pointer of the same type that was remembered last under that number, or an error. Without a number: undefined. -/
def pointer (t : STy) (h : Handle) (st : Loaded) : Res (SVal × Loaded) :=
  match h.name, h.data with
  | none, _ => .ub
  | some n, some target => .ok (.handle 0 target, ⟨(n, t, target) :: st.saved, st.heap⟩)
  | some n, none =>
    match st.saved.lookup n with
    | some (u, target) => if u = t then .ok (.handle 0 target, st) else throwStd
    | none => throwStd

section
variable {K X : Type} (sem : ScalarSem K X) (S : SEnv) (cfg : Cfg)

/-- The document is `null`. -/
def Tr.isNull : Tr K X → Bool
  | .scalar x => sem.isNull x
  | _ => false

/-- The number in a handle. -/
def number : Tr K X → Res Int
  | .scalar x => sem.readInt intmax x
  | _ => throwStd

/-- Import into a type without shared pointers. -/
def impPlain (tr : Tr K X) (t : Ty) (st : Loaded) : Res (SVal × Loaded) := do
  return (.plain (← imp sem S.env cfg tr t (t.default S.env)), st)

/-- Import of a document into a fresh value of the type: the value, and what was built on the way. Documents of another kind than the
type wants are errors. -/
def impS : Tr K X → STy → Loaded → Res (SVal × Loaded)
  | .scalar x, .plain t, st => impPlain sem S cfg (.scalar x) t st
  | .arr ts, .plain t, st => impPlain sem S cfg (.arr ts) t st
  | .obj ms, .plain t, st => impPlain sem S cfg (.obj ms) t st
  | .arr ts, .vec t, st => elems ts t [] st
  | .obj ms, .cls c, st => members ms (S.classes c) [] ((S.classes c).map fun _ => .unset) st
  | .obj ms, .shared t, st => info ms t [] ⟨none, none⟩ st
  | .scalar x, .shared _, st => if sem.isNull x then .ok (.handle 0 none, st) else throwStd
  | .scalar _, .vec _, _ | .scalar _, .cls _, _ | .arr _, .cls _, _ | .arr _, .shared _, _ | .obj _, .vec _, _ => throwStd
where
  /-- the elements of an array, after `vs` -/
  elems : List (Tr K X) → STy → List SVal → Loaded → Res (SVal × Loaded)
  | [], _, vs, st => .ok (.list vs, st)
  | tr :: ts, t, vs, st => do
    let (v, st) ← impS tr t st
    elems ts t (vs ++ [v]) st
  /-- the members of an object of a class with the members `decl`; `fs` are their values so far -/
  members : List (K × Tr K X) → List (Bytes × STy) → List Bytes → List SVal → Loaded → Res (SVal × Loaded)
  | [], decl, found, fs, st =>
    if cfg.strict = .Exact ∧ decl.all (fun m => found.contains m.1) = false then throwStd else .ok (.obj fs, st)
  | (k, tr) :: ms, decl, found, fs, st =>
    match smemberAt (sem.key k) decl 0 with
    | none =>
      if cfg.strict ≠ .Weak then throwStd
      else if tr.skippable sem = false then .ub
      else members ms decl found fs st
    | some (i, t) => do
      let (v, st) ← impS tr t st
      members ms decl (sem.key k :: found) (fs.set i v) st
  /-- the members of a handle to a `t` -/
  info : List (K × Tr K X) → STy → List Bytes → Handle → Loaded → Res (SVal × Loaded)
  | [], t, found, h, st =>
    if cfg.strict = .Exact ∧ (found.contains infoName && found.contains infoData) = false then throwStd else pointer t h st
  | (k, tr) :: ms, t, found, h, st =>
    if sem.key k = infoName then do
      let n ← number sem tr
      info ms t (infoName :: found) { h with name := some n } st
    else if sem.key k = infoData then
      if tr.isNull sem then info ms t (infoData :: found) { h with data := some none } (h.deleted st)
      else do
        let (v, st) ← impS tr t (h.deleted st)
        info ms t (infoData :: found) { h with data := some (some st.heap.length) } ⟨st.saved, st.heap ++ [v]⟩
    else if cfg.strict ≠ .Weak then throwStd
    else if tr.skippable sem = false then .ub
    else info ms t found h st
end

section
variable {K X : Type} (sem : ScalarSem K X) (S : SEnv)

/-- How often a member of that name is in an object. -/
def times (n : Bytes) (ms : List (K × Tr K X)) : Nat := (ms.filter fun m => sem.key m.1 == n).length

/-- Where the type has a shared pointer and the document an object, the object satisfies `ok`. -/
def Handles (ok : List (K × Tr K X) → Prop) : Tr K X → STy → Prop
  | .arr ts, .vec t => elems ts t
  | .obj ms, .cls c => members ms (S.classes c)
  | .obj ms, .shared t => ok ms ∧ info ms t
  | .scalar _, .plain _ | .scalar _, .vec _ | .scalar _, .cls _ | .scalar _, .shared _ | .arr _, .plain _ | .arr _, .cls _ | .arr _, .shared _
  | .obj _, .plain _ | .obj _, .vec _ => True
where
  elems : List (Tr K X) → STy → Prop
  | [], _ => True
  | tr :: ts, t => Handles ok tr t ∧ elems ts t
  members : List (K × Tr K X) → List (Bytes × STy) → Prop
  | [], _ => True
  | (k, tr) :: ms, decl => (∀ i t, smemberAt (sem.key k) decl 0 = some (i, t) → Handles ok tr t) ∧ members ms decl
  info : List (K × Tr K X) → STy → Prop
  | [], _ => True
  | (k, tr) :: ms, t => (sem.key k = infoData → Handles ok tr t) ∧ info ms t

/-- Every handle says its number. -/
def Numbered (tr : Tr K X) (t : STy) : Prop := Handles sem S (fun ms => 0 < times sem infoName ms) tr t
end

section
variable {K X : Type} (sem : ScalarSem K X) (S : SEnv) (cfg : Cfg)

/-- Nothing else in the document leads to undefined behaviour: the parts for types without shared pointers, the numbers of the handles,
and what has to be skipped because no member has that name. -/
def Defined : Tr K X → STy → Prop
  | .scalar x, .plain t => imp sem S.env cfg (.scalar x) t (t.default S.env) ≠ .ub
  | .arr ts, .plain t => imp sem S.env cfg (.arr ts) t (t.default S.env) ≠ .ub
  | .obj ms, .plain t => imp sem S.env cfg (.obj ms) t (t.default S.env) ≠ .ub
  | .arr ts, .vec t => elems ts t
  | .obj ms, .cls c => members ms (S.classes c)
  | .obj ms, .shared t => info ms t
  | .scalar _, .vec _ | .scalar _, .cls _ | .scalar _, .shared _ | .arr _, .cls _ | .arr _, .shared _ | .obj _, .vec _ => True
where
  elems : List (Tr K X) → STy → Prop
  | [], _ => True
  | tr :: ts, t => Defined tr t ∧ elems ts t
  members : List (K × Tr K X) → List (Bytes × STy) → Prop
  | [], _ => True
  | (k, tr) :: ms, decl =>
    (∀ i t, smemberAt (sem.key k) decl 0 = some (i, t) → Defined tr t) ∧
    (smemberAt (sem.key k) decl 0 = none → cfg.strict = .Weak → tr.skippable sem = true) ∧ members ms decl
  info : List (K × Tr K X) → STy → Prop
  | [], _ => True
  | (k, tr) :: ms, t =>
    (sem.key k = infoName → number sem tr ≠ .ub) ∧
    (sem.key k = infoData → tr.isNull sem = false → Defined tr t) ∧
    (sem.key k ≠ infoName → sem.key k ≠ infoData → cfg.strict = .Weak → tr.skippable sem = true) ∧ info ms t
end

end Thors.Spec
