import Verif.Model.Deser
/-
Specification: a document as a tree, and what importing a tree into a C++ object of a given type should do.
Nothing here mentions tokens, buffers or positions.
-/
namespace Thors.Spec
open Thors StrIn

/-- A document: scalars of type `X`, arrays, and objects with keys of type `K`. -/
inductive Tr (K X : Type) where
  | scalar (x : X)
  | arr (ts : List (Tr K X))
  | obj (ms : List (K × Tr K X))

/-- What the scalars and keys of a format mean. `skips` / `keySkips` say whether the reader of the format
can skip the item (the exceptions are recorded as disagreements). -/
structure ScalarSem (K X : Type) where
  isNull : X → Bool
  readInt : IntKind → X → Res Int
  readFlt : FKind → X → Res Flt
  readBool : X → Res Bool
  readStr : X → Res Bytes
  /-- the text of the scalar as `getRawValue` hands it out, where specified -/
  raw : X → Option Bytes
  skips : X → Bool
  key : K → Bytes
  keySkips : K → Bool

namespace Tr
variable {K X : Type}

/-- Every scalar and key in the tree can be skipped. -/
def skippable (sem : ScalarSem K X) : Tr K X → Bool
  | scalar x => sem.skips x
  | arr ts => all ts
  | obj ms => allM ms
where
  all : List (Tr K X) → Bool
  | [] => true
  | t :: ts => t.skippable sem && all ts
  allM : List (K × Tr K X) → Bool
  | [] => true
  | (k, t) :: ms => sem.keySkips k && t.skippable sem && allM ms

end Tr

/-- How to import a piece of document: the type wanted and the old value give the new value, an exception,
or `ub`. -/
abbrev Imp := Ty → Val → Res Val

section
variable {K X : Type} (sem : ScalarSem K X) (env : Env) (cfg : Cfg)

/-- Import of a scalar. -/
def impScalar (x : X) : Ty → Val → Res Val
  | .int k, _ => do return .int (← sem.readInt k x)
  | .flt f, _ => do return .flt (← sem.readFlt f x)
  | .bool, _ => do return .bool (← sem.readBool x)
  | .str, _ => do return .str (← sem.readStr x)
  | .opt t, old => do return .some (← impScalar x t (old.contentOr (t.default env)))
  | .uptr t, _ => if sem.isNull x then .ok .null else do return .ptr (← impScalar x t (t.default env))
  | .pptr _, _ => if sem.isNull x then .ok .null else throwStd
  | .named i, _ =>
    match env.defs i with
    | .enum table => do
      match enumOf table (← sem.readStr x) with
      | some v => return .enum v
      | none => throwStd
    | _ => throwStd
  | _, _ => throwStd

/-- Elements of a sequence container: put into it one by one. -/
def impVec (c : SeqKind) (t : Ty) : List Imp → List Val → Res Val
  | [], vs => .ok (.list vs)
  | e :: es, vs => do
    let v ← e t (t.default env)
    impVec c t es (c.insert env vs v)

/-- Elements of a fixed-size container: element number `i` goes into slot `i`; one too many is `ub`. -/
def impFix (tyAt : Nat → Option Ty) : List Imp → Nat → List Val → Res Val
  | [], _, vs => .ok (.list vs)
  | e :: es, i, vs =>
    match tyAt i, vs[i]? with
    | some t, some w => do
      let v ← e t w
      impFix tyAt es (i + 1) (vs.set i v)
    | _, _ => .ub

/-- Import of an array. -/
def impArr (es : List Imp) : Ty → Val → Res Val
  | .seq c t, .list vs => impVec env c t es vs
  | .seq _ _, _ => .ub
  | .arr n t, .list vs => impFix (fun i => if i < n then some t else none) es 0 vs
  | .arr _ _, _ => .ub
  | .opt t, old => do return .some (← impArr es t (old.contentOr (t.default env)))
  | .uptr t, _ => do return .ptr (← impArr es t (t.default env))
  | .named i, old =>
    match env.defs i with
    | .tuple ts =>
      match old with
      | .list vs => impFix (fun i => ts[i]?) es 0 vs
      | _ => .ub
    | _ => throwStd
  | _, _ => throwStd

/-- A member of an object: its key, its value as a tree and how that is imported. -/
structure Mem (K X : Type) where
  key : K
  tree : Tr K X
  imp : Imp

/-- Members of an associative container. -/
def impDict (kind : DictKind) (t : Ty) : List (Mem K X) → List (Bytes × Val) → Res Val
  | [], kvs => .ok (.dict kvs)
  | m :: ms, kvs => do
    let key := sem.key m.key
    match kind with
    | .sorted =>
      let v ← m.imp t ((dictGet key kvs).getD (t.default env))
      impDict kind t ms (dictSet key v kvs)
    | .multi =>
      let v ← m.imp t (t.default env)
      impDict kind t ms (multiInsert key v kvs)
    | .unordered =>
      let v ← m.imp t (t.default env)
      impDict kind t ms (uniqueInsert key v kvs)

/-- Members of a class, in document order. A member the class does not know is an error unless the mode is
Weak, and is then dropped (`ub` here means: not specified, because the reader cannot skip that text). At the
end, Exact mode wants every declared name among the keys. -/
def impMembers (d : StructDef) : List (Mem K X) → List Bytes → Val → Res Val
  | [], found, old => if cfg.strict = .Exact ∧ d.heed found = false then throwStd else .ok old
  | m :: ms, found, old =>
    match d.find (sem.key m.key) with
    | none =>
      if cfg.strict ≠ .Weak then throwStd
      else if m.tree.skippable sem = false then .ub
      else impMembers d ms found old
    | some slot =>
      match old.field slot.path slot.index with
      | none => .ub
      | some w => do
        let v ← m.imp slot.ty w
        impMembers d ms (sem.key m.key :: found) (old.setField slot.path slot.index v)

/-- The class name in front of a polymorphic object: the first member must be the marker with a string. -/
def className (marker : Bytes) : List (Mem K X) → Res (Bytes × List (Mem K X))
  | [] => throwStd
  | m :: ms =>
    if sem.key m.key ≠ marker then throwStd else
    match m.tree with
    | .scalar x => do return (← sem.readStr x, ms)
    | _ => throwStd

/-- Import of an object. -/
def impObj (ms : List (Mem K X)) : Ty → Val → Res Val
  | .smap t, .dict kvs => impDict sem env .sorted t ms kvs
  | .mmap t, .dict kvs => impDict sem env .multi t ms kvs
  | .umap t, .dict kvs => impDict sem env .unordered t ms kvs
  | .smap _, _ | .mmap _, _ | .umap _, _ => .ub
  | .opt t, old => do return .some (← impObj ms t (old.contentOr (t.default env)))
  | .uptr t, _ => do return .ptr (← impObj ms t (t.default env))
  | .pptr b, _ => do
    let (name, ms) ← className sem (polyMarker env cfg.marker b) ms
    match env.registry.lookup name with
    | none => throwStd
    | some c =>
      if env.derives c b = false then .ub else
      match env.defs c with
      | .cls d => do return .dyn c (← impMembers sem cfg d.traits ms [] (env.dflt c))
      | _ => .ub
  | .named i, old =>
    match env.defs i with
    | .cls d => impMembers sem cfg d.traits ms [] old
    | .variant alts => do
      let key := polyMarker env cfg.marker (alts.headD 0)
      let (name, ms) ← className sem key ms
      match pickAlt env cfg key name alts with
      | some c =>
        match env.defs c with
        | .cls d => do return .alt c (← impMembers sem cfg d.traits ms [] (env.dflt c))
        | _ => .ub
      | none => throwStd
    | _ => throwStd
  | _, _ => throwStd

/-- Import of a document. -/
def imp : Tr K X → Imp
  | .scalar x => impScalar sem env x
  | .arr ts => impArr env (elems ts)
  | .obj ms => impObj sem env cfg (members ms)
where
  elems : List (Tr K X) → List Imp
  | [] => []
  | t :: ts => imp t :: elems ts
  members : List (K × Tr K X) → List (Mem K X)
  | [] => []
  | (k, t) :: ms => ⟨k, t, imp t⟩ :: members ms

end
end Thors.Spec
