import Verif.Model.Types
/-
Model of the format independent deserialiser: `/repo/src/Serialize/Serialize.tpp` (deserialising half),
`/repo/src/Serialize/SerUtil.h`, and the parts of `Traits.h` they instantiate.

The C++ code parses into an existing object; `deser ty old p` takes its old value and returns the new one.
When it throws, the half filled object is not in the result: see `Left.lean` for that.
-/
namespace Thors
open StrIn

/-- ParserConfig.h:64-71, the part the deserialiser reads: `parseStrictness` and `polymorphicMarker`. -/
structure Cfg where
  strict : ParseType
  marker : Bytes
  deriving DecidableEq, Repr

/-- `std::map`, `std::multimap`, `std::unordered_map`. -/
inductive DictKind
  | sorted | multi | unordered
  deriving DecidableEq, Repr

variable {σ : Type}

/-- Apply an operation of the concrete parser. -/
def PI.lift {α : Type} (p : PI σ) (r : Res (α × σ)) : Res (α × PI σ) := do
  let (a, s) ← r
  return (a, { p with inner := s })

/-- Serialize.tpp:367-421 `getPolymorphicClassName`. `identifyDynamicType` (ParserInterface.h) returns the
empty string by default, so a first key other than the marker always throws. -/
def polyClassName (o : POps σ) (marker : Bytes) (p : PI σ) : Res (Bytes × PI σ) := do
  let (t, p) ← p.getToken o
  if t ≠ .MapStart then throwStd else
  let (t, p) ← p.getToken o
  if t ≠ .Key then throwStd else
  let (key, p) ← p.lift (o.getKey p.inner)
  if key ≠ marker then throwStd else
  let (t, p) ← p.getToken o
  if t ≠ .Value then throwStd else
  let (name, p) ← p.lift (o.getStr p.inner)
  return (name, p.pushBackToken .MapStart)

/-- Serialize.tpp:460-475 `readVariantValue`, the choice of the alternative: the first class whose marker
is the key and whose name is the class name. -/
def pickAlt (env : Env) (cfg : Cfg) (key name : Bytes) : List Nat → Option Nat
  | [] => none
  | c :: cs =>
    match env.defs c with
    | .cls d => if (key ≠ [] ∧ key ≠ polyMarker env cfg.marker c) ∨ name ≠ d.serName then pickAlt env cfg key name cs
                else some c
    | _ => pickAlt env cfg key name cs

/-- Traits.h:775-789 `Traits<Enum>::getValue`: the first entry with that name. -/
def enumOf (table : List (Int × Bytes)) (name : Bytes) : Option Int :=
  (table.find? (fun e => e.2 = name)).map Prod.fst

mutual
/-- One value: `DeSerializer::parse` (Serialize.tpp:880-902) and `GetValueType` (SerUtil.h:127-154)
dispatching on the traits of the type. -/
def deser (o : POps σ) (env : Env) (cfg : Cfg) (ty : Ty) (old : Val) (p : PI σ) : Res (Val × PI σ) :=
  match ty with
  -- Serialize.tpp:272-294 (Value)
  | .int k => do
    let (t, p) ← p.getToken o
    if t ≠ .Value then throwStd else
    let (i, p) ← p.lift (o.getInt k p.inner)
    return (.int i, p)
  | .flt f => do
    let (t, p) ← p.getToken o
    if t ≠ .Value then throwStd else
    let (x, p) ← p.lift (o.getFlt f p.inner)
    return (.flt x, p)
  | .bool => do
    let (t, p) ← p.getToken o
    if t ≠ .Value then throwStd else
    let (b, p) ← p.lift (o.getBool p.inner)
    return (.bool b, p)
  | .str => do
    let (t, p) ← p.getToken o
    if t ≠ .Value then throwStd else
    let (s, p) ← p.lift (o.getStr p.inner)
    return (.str s, p)
  -- Serialize.tpp:621-662 (Array)
  | .seq c t => do
    let (k, p) ← p.getToken o
    if k ≠ .ArrayStart then throwStd else
    match old with
    | .list vs => deserVec o env cfg c t vs p
    | _ => .ub
  | .arr n t => do
    let (k, p) ← p.getToken o
    if k ≠ .ArrayStart then throwStd else
    match old with
    | .list vs => deserFix o env cfg (fun i => if i < n then some t else none) 0 vs p
    | _ => .ub
  -- Serialize.tpp:196-265 (Map)
  | .smap t => do
    let (k, p) ← p.getToken o
    if k ≠ .MapStart then throwStd else
    match old with
    | .dict kvs => deserDict o env cfg .sorted t kvs p
    | _ => .ub
  | .mmap t => do
    let (k, p) ← p.getToken o
    if k ≠ .MapStart then throwStd else
    match old with
    | .dict kvs => deserDict o env cfg .multi t kvs p
    | _ => .ub
  | .umap t => do
    let (k, p) ← p.getToken o
    if k ≠ .MapStart then throwStd else
    match old with
    | .dict kvs => deserDict o env cfg .unordered t kvs p
    | _ => .ub
  -- Serialize.tpp:548-567 (Reference) with SerUtil.h:980-981: emplace if empty, then parse the content
  | .opt t => do
    let (v, p) ← deser o env cfg t (old.contentOr (t.default env)) p
    return (.some v, p)
  -- Serialize.tpp:491-517 (Pointer) with 444-450: null, or a fresh object
  | .uptr t => do
    let (k, p) ← p.getToken o
    if o.isNull p.inner then
      let s ← o.ignoreData p.inner
      return (.null, { p with inner := s })
    else
      let (v, p) ← deser o env cfg t (t.default env) (p.pushBackToken k)
      return (.ptr v, p)
  -- Serialize.tpp:491-517 with 423-442: null, or an object of the registered class that is named
  | .pptr b => do
    let (k, p) ← p.getToken o
    if o.isNull p.inner then
      let s ← o.ignoreData p.inner
      return (.null, { p with inner := s })
    else
      let (name, p) ← polyClassName o (polyMarker env cfg.marker b) (p.pushBackToken k)
      match env.registry.lookup name with
      | none => throwStd
      | some c =>
        -- Traits.h:1188 `reinterpret_cast` of whatever was registered under that name
        if env.derives c b = false then .ub else
        match env.defs c with
        | .cls d => do
          let (v, p) ← deserClass o env cfg d.traits (env.dflt c) p
          return (.dyn c v, p)
        | _ => .ub
  | .named i =>
    match env.defs i with
    | .cls d => deserClass o env cfg d.traits old p
    | .tuple ts => do
      let (k, p) ← p.getToken o
      if k ≠ .ArrayStart then throwStd else
      match old with
      | .list vs => deserFix o env cfg (fun i => ts[i]?) 0 vs p
      | _ => .ub
    -- Serialize.tpp:588-613 (Enum)
    | .enum table => do
      let (t, p) ← p.getToken o
      if t ≠ .Value then throwStd else
      let (s, p) ← p.lift (o.getStr p.inner)
      match enumOf table s with
      | some v => return (.enum v, p)
      | none => throwStd
    -- Serialize.tpp:477-488 `readVariant`
    | .variant alts => do
      let key := polyMarker env cfg.marker (alts.headD 0)
      let (name, p) ← polyClassName o key p
      match pickAlt env cfg key name alts with
      | some c =>
        match env.defs c with
        | .cls d => do
          let (v, p) ← deserClass o env cfg d.traits (env.dflt c) p
          return (.alt c v, p)
        | _ => .ub
      | none => do
        let p ← p.ignoreValue o cfg.strict
        return (old, p)
partial_fixpoint

/-- The elements of a sequence container, from the evaluation of the loop condition on: each is parsed into a value
initialised object, `emplace_back`ed (SerUtil.h:240-258, 351-356: parsed in place) or inserted (SerUtil.h:216-239). -/
def deserVec (o : POps σ) (env : Env) (cfg : Cfg) (c : SeqKind) (t : Ty) (vs : List Val) (p : PI σ) : Res (Val × PI σ) := do
  let (k, p) ← p.getToken o
  if k = .ArrayEnd then return (.list vs, p) else
  let (v, p) ← deser o env cfg t (t.default env) (p.pushBackToken k)
  deserVec o env cfg c t (c.insert env vs v) p
partial_fixpoint

/-- The elements of a `std::array` (SerUtil.h:325-328 `container[index]`) or `std::tuple` (SerUtil.h:856-863,
an initializer_list of decoders indexed without a check). -/
def deserFix (o : POps σ) (env : Env) (cfg : Cfg) (tyAt : Nat → Option Ty) (i : Nat) (vs : List Val) (p : PI σ) :
    Res (Val × PI σ) := do
  let (k, p) ← p.getToken o
  if k = .ArrayEnd then return (.list vs, p) else
  match tyAt i, vs[i]? with
  | some t, some w => do
    let (v, p) ← deser o env cfg t w (p.pushBackToken k)
    deserFix o env cfg tyAt (i + 1) (vs.set i v) p
  | _, _ => .ub
partial_fixpoint

/-- The members of an associative container with string keys (SerUtil.h:616-621, 678-684, 809-815). -/
def deserDict (o : POps σ) (env : Env) (cfg : Cfg) (kind : DictKind) (t : Ty) (kvs : List (Bytes × Val)) (p : PI σ) :
    Res (Val × PI σ) := do
  let (k, p) ← p.getToken o
  if k = .MapEnd then return (.dict kvs, p) else
  let (key, p) ← p.lift (o.getKey p.inner)
  let w := match kind with
    | .sorted => (dictGet key kvs).getD (t.default env)
    | _ => t.default env
  let (v, p) ← deser o env cfg t w p
  let kvs := match kind with
    | .sorted => dictSet key v kvs
    | .multi => multiInsert key v kvs
    | .unordered => uniqueInsert key v kvs
  deserDict o env cfg kind t kvs p
partial_fixpoint

/-- An object of class type: Serialize.tpp:208-219, the start of the object, and then its members. -/
def deserClass (o : POps σ) (env : Env) (cfg : Cfg) (d : StructDef) (old : Val) (p : PI σ) : Res (Val × PI σ) := do
  let (k, p) ← p.getToken o
  if k ≠ .MapStart then throwStd else
  deserMembers o env cfg d [] old p
partial_fixpoint

/-- Serialize.tpp:221-263 `scanObject` and `hasMoreValue` on a class (built without
`FULL_VALIDATION_OF_PARSER`: any token but MapEnd is taken for a key). -/
def deserMembers (o : POps σ) (env : Env) (cfg : Cfg) (d : StructDef) (found : List Bytes) (old : Val) (p : PI σ) :
    Res (Val × PI σ) := do
  let (k, p) ← p.getToken o
  if k = .MapEnd then
    if cfg.strict = .Exact ∧ d.heed found = false then throwStd else return (old, p)
  else
  let (key, p) ← p.lift (o.getKey p.inner)
  match d.find key with
  | none => do
    let p ← p.ignoreValue o cfg.strict
    deserMembers o env cfg d found old p
  | some slot =>
    match old.field slot.path slot.index with
    | none => .ub
    | some w => do
      let (v, p) ← deser o env cfg slot.ty w p
      deserMembers o env cfg d (key :: found) (old.setField slot.path slot.index v) p
partial_fixpoint
end

/-- Serialize.h:250-283, the constructor and destructor of the root `DeSerializer` around `parse`: document start,
the value, document end. -/
def importValue (o : POps σ) (env : Env) (cfg : Cfg) (ty : Ty) (old : Val) (p : PI σ) : Res (Val × PI σ) := do
  let (k, p) ← p.getToken o
  if k ≠ .DocStart then throwStd else
  let (v, p) ← deser o env cfg ty old p
  let (k, p) ← p.getToken o
  if k ≠ .DocEnd then throwStd else
  return (v, p)

end Thors
