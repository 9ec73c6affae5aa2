import Verif.Spec.Typed
import Verif.Spec.Doc
import Verif.Spec.Tree
import Verif.Spec.JsonText
/-
Specification: a document whose numbers, arrays and class names have room in the type it is read into.
-/
namespace Thors.Spec
open Thors StrIn

/-- What optionals and pointers in front of a type lead to. -/
def bare : Ty → Ty
  | .opt t => bare t
  | .uptr t => bare t
  | t => t

section
variable {K X : Type} (sem : ScalarSem K X) (env : Env)

/-- The class that is registered under the name in the first member of an object. -/
def namedClass : List (K × Tr K X) → Option Nat
  | (_, .scalar x) :: _ =>
    match sem.readStr x with
    | .ok s => env.registry.lookup s
    | _ => none
  | _ => none

/-- The type of the member of a class that a key stands for. -/
def memberType (d : StructDef) (k : Bytes) : Option Ty := (d.find k).map (·.ty)

/-- The document has room: arrays are not longer than the fixed size containers they are read into, scalars are `ok` for the type they are
read into, classes that are named are derived from the class of the pointer. Nothing is asked of parts that are not read, or that
are read into something of another kind. -/
def Fits (ok : Ty → X → Prop) : Tr K X → Ty → Prop
  | .scalar x, ty => ok (bare ty) x
  | .arr ts, ty =>
    match bare ty with
    | .seq _ t => elems (fun _ => some t) 0 ts
    | .arr n t => ts.length ≤ n ∧ elems (fun _ => some t) 0 ts
    | .named i =>
      match env.defs i with
      | .tuple tys => ts.length ≤ tys.length ∧ elems (fun j => tys[j]?) 0 ts
      | _ => True
    | _ => True
  | .obj ms, ty =>
    match bare ty with
    | .smap t => members (fun _ => some t) ms
    | .mmap t => members (fun _ => some t) ms
    | .umap t => members (fun _ => some t) ms
    | .pptr b => ∀ c, namedClass sem env ms = some c → env.derives c b = true ∧ ∀ d, env.defs c = .cls d → members (memberType d.traits) ms
    | .named i =>
      match env.defs i with
      | .cls d => members (memberType d.traits) ms
      | .variant alts => ∀ c ∈ alts, ∀ d, env.defs c = .cls d → members (memberType d.traits) ms
      | _ => True
    | _ => True
where
  /-- the elements from number `i` on -/
  elems (tyAt : Nat → Option Ty) (i : Nat) : List (Tr K X) → Prop
  | [] => True
  | t :: ts => (∀ ty, tyAt i = some ty → Fits ok t ty) ∧ elems tyAt (i + 1) ts
  members (tyOf : Bytes → Option Ty) : List (K × Tr K X) → Prop
  | [] => True
  | (k, t) :: ms => (∀ ty, tyOf (sem.key k) = some ty → Fits ok t ty) ∧ members tyOf ms

end

/-- A number of a JSON text is in the range of the type it is read into. -/
def NumberFits : Ty → JScalar → Prop
  | .int k, x => ∀ t i, x = .int t i → InRange k i
  | .flt f, x => ∀ d, x.number = some d → d.toFlt f ≠ none
  | _, _ => True

/-- The alternatives of the variants and the registered classes are classes. -/
structure ClassesKnown (env : Env) : Prop where
  registry : ∀ n c, (n, c) ∈ env.registry → ∃ d, env.defs c = .cls d
  alts : ∀ i cs, env.defs i = .variant cs → ∀ c ∈ cs, ∃ d, env.defs c = .cls d

end Thors.Spec
