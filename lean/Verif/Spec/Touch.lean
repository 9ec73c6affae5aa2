import Verif.Spec.Tree
/-
Specification for C97: places in an object, and which places a document mentions. The place of a member of a class
is the name the member has in documents, the place of an entry of a `std::map` its key, the place of an element of a
`std::array`, a built-in array, a tuple or a pair its number. An engaged `std::optional` is looked through.
-/
namespace Thors.Spec
open Thors

/-- One step on the way to a place. -/
inductive Step where
  | key (k : Bytes)
  | index (n : Nat)

/-- The type and value in an engaged `std::optional`. -/
def unwrap : Ty → Val → Ty × Val
  | .opt t, .some w => unwrap t w
  | t, v => (t, v)

/-- The part of an object one step away, with its type. Sequences, sets, multimaps, pointers and variants have no
places that could be mentioned: what is imported into them is added to them or replaces what they hold. -/
def part (env : Env) : Ty → Val → Step → Option (Ty × Val)
  | .smap t, .dict kvs, .key k => (dictGet k kvs).map fun w => (t, w)
  | .arr n t, .list vs, .index i => if i < n then vs[i]?.map fun w => (t, w) else none
  | .named c, v, .key k =>
    match env.defs c with
    | .cls d =>
      match d.traits.find k with
      | some slot => (v.field slot.path slot.index).map fun w => (slot.ty, w)
      | none => none
    | _ => none
  | .named c, .list vs, .index i =>
    match env.defs c with
    | .tuple ts =>
      match ts[i]?, vs[i]? with
      | some t, some w => some (t, w)
      | _, _ => none
    | _ => none
  | _, _, _ => none

/-- The value at a place of an object of type `ty`, if it has that place. -/
def look (env : Env) : List Step → Ty → Val → Option Val
  | [], _, v => some v
  | s :: p, ty, v =>
    match part env (unwrap ty v).1 (unwrap ty v).2 s with
    | some (t, w) => look env p t w
    | none => none

/-- A document mentions a place if it has a value for it, or for something that contains it and is not an object or
array with members for parts of it. -/
inductive Mentions {K X : Type} (sem : ScalarSem K X) : Tr K X → List Step → Prop where
  | here (t : Tr K X) : Mentions sem t []
  | member {ms : List (K × Tr K X)} {k : K} {t : Tr K X} {p : List Step} (hm : (k, t) ∈ ms) (h : Mentions sem t p) :
    Mentions sem (.obj ms) (.key (sem.key k) :: p)
  | elem {ts : List (Tr K X)} {i : Nat} {t : Tr K X} {p : List Step} (hi : ts[i]? = some t) (h : Mentions sem t p) :
    Mentions sem (.arr ts) (.index i :: p)

end Thors.Spec
