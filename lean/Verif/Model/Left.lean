import Verif.Model.Importer
/-
Model of what a deserialisation that throws leaves behind. The same code as in `Deser.lean`
(`/repo/src/Serialize/Serialize.tpp`, `/repo/src/Serialize/SerUtil.h`), but an exception carries the object as it is then.
-/
namespace Thors
open StrIn Lean.Order

/-- What the types of the model do not say and matters only when something throws.
 * `str`: what `getValue(std::string&)` has made of its argument when it throws (JsonManualLexer.cpp:174-207 reads into it piece by
   piece, BsonParser.h:93 clears it first): any string.
 * `raw`: the pointers of this type are plain pointers (ThorsSerializerUtil.h:166-181), not `std::unique_ptr` (SerUtil.h:913-935).
 * `packed`: sequences of `bool` are `std::vector<bool>` (SerUtil.h:398-425), whose elements are inserted and not emplaced. -/
structure Mess (σ : Type) where
  str : Val → PI σ → Bytes
  raw : Ty → Bool
  packed : Bool

/-- The end of a deserialisation: the value and the parser, or an exception and the object it leaves; `dangles`: a pointer in the object has
been deleted and not been assigned to since. -/
inductive Eff (σ : Type) where
  | done (v : Val) (p : PI σ)
  | threw (e : Exc) (left : Val) (dangles : Bool)

/-- Catch an exception. -/
def Res.attempt {α : Type} : Res α → Res (Except Exc α)
  | .ok a => .ok (.ok a)
  | .throw e => .ok (.error e)
  | .ub => .ub

variable {σ : Type}

/-- Do something that leaves the object alone; the object, if that throws. -/
def step {α : Type} (r : Res α) (now : Val) (dangles : Bool) (k : α → Res (Eff σ)) : Res (Eff σ) := do
  match ← r.attempt with
  | .error e => return .threw e now dangles
  | .ok a => k a

/-- Deserialise a part of the object; `back` puts what is left of the part into the object. -/
def into (r : Res (Eff σ)) (back : Val → Bool → Val × Bool) (k : Val → PI σ → Res (Eff σ)) : Res (Eff σ) := do
  match ← r with
  | .threw e w d => return .threw e (back w d).1 (back w d).2
  | .done v p => k v p

@[partial_fixpoint_monotone]
theorem monotone_step {γ α : Type} [PartialOrder γ] (r : Res α) (now : Val) (d : Bool) (k : γ → α → Res (Eff σ)) (hk : monotone k) :
    monotone fun x => step r now d (k x) := by
  unfold step
  refine monotone_bind Res _ _ (monotone_const _) (monotone_of_monotone_apply _ fun a => ?_)
  cases a with
  | error e => exact monotone_const _
  | ok a => exact monotone_apply a _ hk

@[partial_fixpoint_monotone]
theorem monotone_into {γ : Type} [PartialOrder γ] (r : γ → Res (Eff σ)) (back : Val → Bool → Val × Bool) (k : γ → Val → PI σ → Res (Eff σ))
    (hr : monotone r) (hk : monotone k) : monotone fun x => into (r x) back (k x) := by
  unfold into
  refine monotone_bind Res _ _ hr (monotone_of_monotone_apply _ fun a => ?_)
  cases a with
  | threw e w d => exact monotone_const _
  | done v p => exact monotone_apply p _ (monotone_apply v _ hk)

/-- The token the constructor of the block of a type wants to see (Serialize.tpp:208-219, 629-641); other blocks read nothing before
`scanObject`. -/
def Ty.opens (env : Env) : Ty → Option Tok
  | .seq _ _ | .arr _ _ => some .ArrayStart
  | .smap _ | .mmap _ | .umap _ => some .MapStart
  | .named i =>
    match env.defs i with
    | .cls _ => some .MapStart
    | .tuple _ => some .ArrayStart
    | _ => none
  | _ => none

/-- The constructor of a block. -/
def blockStart (o : POps σ) : Option Tok → PI σ → Res Unit
  | some k', p => do
    let (k, _) ← p.getToken o
    if k ≠ k' then throwStd else return ()
  | none, _ => .ok ()

/-- A scalar: the token, and then the value. -/
def scalarE {α : Type} (o : POps σ) (get : σ → Res (α × σ)) (p : PI σ) : Res (α × PI σ) := do
  let (t, p) ← p.getToken o
  if t ≠ .Value then throwStd else p.lift (get p.inner)

/-- Serialize.tpp:503-516, a pointer up to the point where it is assigned to: `none` for null. -/
def pointerE (o : POps σ) (p : PI σ) : Res (Option Tok × PI σ) := do
  let (k, p) ← p.getToken o
  if o.isNull p.inner then
    let s ← o.ignoreData p.inner
    return (none, { p with inner := s })
  else return (some k, p)

/-- Whether an element of a sequence is parsed where it lies in the container: SerUtil.h:240-258, but 216-239 for sets and
`std::vector<bool>`, where it is inserted afterwards. -/
def Mess.inPlace (m : Mess σ) : SeqKind → Ty → Bool
  | .back, .bool => !m.packed
  | .back, _ => true
  | _, _ => false

/-- Serialize.tpp:503: the released pointer is dangling if it was not null and is not a smart pointer. -/
def Mess.dangles (m : Mess σ) (ty : Ty) : Val → Bool
  | .null => false
  | _ => m.raw ty

mutual
/-- One value, as `deser`. -/
def deserE (o : POps σ) (env : Env) (cfg : Cfg) (m : Mess σ) (ty : Ty) (old : Val) (p : PI σ) : Res (Eff σ) :=
  match ty with
  -- JsonParser.cpp:151-169 and the like: the assignment comes after all that can throw
  | .int k => step (scalarE o (o.getInt k) p) old false fun (i, p) => .ok (.done (.int i) p)
  | .flt f => step (scalarE o (o.getFlt f) p) old false fun (x, p) => .ok (.done (.flt x) p)
  | .bool => step (scalarE o o.getBool p) old false fun (b, p) => .ok (.done (.bool b) p)
  -- JsonParser.cpp:172-175: read into the object
  | .str =>
    step (p.getToken o) old false fun (t, p) =>
    if t ≠ .Value then .ok (.threw .std old false) else
    step (p.lift (o.getStr p.inner)) (.str (m.str old p)) false fun (s, p) => .ok (.done (.str s) p)
  | .seq c t =>
    step (p.getToken o) old false fun (k, p) =>
    if k ≠ .ArrayStart then .ok (.threw .std old false) else
    match old with
    | .list vs => deserVecE o env cfg m c t vs p
    | _ => .ub
  | .arr n t =>
    step (p.getToken o) old false fun (k, p) =>
    if k ≠ .ArrayStart then .ok (.threw .std old false) else
    match old with
    | .list vs => deserFixE o env cfg m (fun i => if i < n then some t else none) 0 vs p
    | _ => .ub
  | .smap t =>
    step (p.getToken o) old false fun (k, p) =>
    if k ≠ .MapStart then .ok (.threw .std old false) else
    match old with
    | .dict kvs => deserDictE o env cfg m .sorted t kvs p
    | _ => .ub
  | .mmap t =>
    step (p.getToken o) old false fun (k, p) =>
    if k ≠ .MapStart then .ok (.threw .std old false) else
    match old with
    | .dict kvs => deserDictE o env cfg m .multi t kvs p
    | _ => .ub
  | .umap t =>
    step (p.getToken o) old false fun (k, p) =>
    if k ≠ .MapStart then .ok (.threw .std old false) else
    match old with
    | .dict kvs => deserDictE o env cfg m .unordered t kvs p
    | _ => .ub
  -- Serialize.tpp:548-567: the block of the content is constructed, which may read a token, before `getInputValue` emplaces. (The model
  -- reads that token twice from the same place.)
  | .opt t =>
    step (blockStart o (t.opens env) p) old false fun _ =>
    into (deserE o env cfg m t (old.contentOr (t.default env)) p) (fun w d => (.some w, d)) fun v p => .ok (.done (.some v) p)
  -- Serialize.tpp:503 `release`, then 444-450: the new object is assigned before it is parsed into
  | .uptr t =>
    step (pointerE o p) .null (m.dangles (.uptr t) old) fun (k, p) =>
    match k with
    | none => .ok (.done .null p)
    | some k => into (deserE o env cfg m t (t.default env) (p.pushBackToken k)) (fun w d => (.ptr w, d)) fun v p => .ok (.done (.ptr v) p)
  | .pptr b =>
    step (pointerE o p) .null (m.dangles (.pptr b) old) fun (k, p) =>
    match k with
    | none => .ok (.done .null p)
    | some k =>
      step (polyClassName o (polyMarker env cfg.marker b) (p.pushBackToken k)) .null (m.dangles (.pptr b) old) fun (name, p) =>
      match env.registry.lookup name with
      | none => .ok (.threw .std .null (m.dangles (.pptr b) old))
      | some c =>
        if env.derives c b = false then .ub else
        match env.defs c with
        | .cls d => into (deserClassE o env cfg m d.traits (env.dflt c) p) (fun w d => (.dyn c w, d)) fun v p => .ok (.done (.dyn c v) p)
        | _ => .ub
  | .named i =>
    match env.defs i with
    | .cls d => deserClassE o env cfg m d.traits old p
    | .tuple ts =>
      step (p.getToken o) old false fun (k, p) =>
      if k ≠ .ArrayStart then .ok (.threw .std old false) else
      match old with
      | .list vs => deserFixE o env cfg m (fun i => ts[i]?) 0 vs p
      | _ => .ub
    -- Serialize.tpp:588-613: the name goes into a variable of its own
    | .enum table =>
      step (scalarE o o.getStr p) old false fun (s, p) =>
      match enumOf table s with
      | some v => .ok (.done (.enum v) p)
      | none => .ok (.threw .std old false)
    -- Serialize.tpp:470-474: the alternative is made before it is parsed into
    | .variant alts =>
      step (polyClassName o (polyMarker env cfg.marker (alts.headD 0)) p) old false fun (name, p) =>
      match pickAlt env cfg (polyMarker env cfg.marker (alts.headD 0)) name alts with
      | some c =>
        match env.defs c with
        | .cls d => into (deserClassE o env cfg m d.traits (env.dflt c) p) (fun w d => (.alt c w, d)) fun v p => .ok (.done (.alt c v) p)
        | _ => .ub
      | none => step (p.ignoreValue o cfg.strict) old false fun p => .ok (.done old p)
partial_fixpoint

/-- The elements of a sequence, as `deserVec`: an emplaced element stays in the container. -/
def deserVecE (o : POps σ) (env : Env) (cfg : Cfg) (m : Mess σ) (c : SeqKind) (t : Ty) (vs : List Val) (p : PI σ) : Res (Eff σ) :=
  step (p.getToken o) (.list vs) false fun (k, p) =>
  if k = .ArrayEnd then .ok (.done (.list vs) p) else
  into (deserE o env cfg m t (t.default env) (p.pushBackToken k))
    (fun w d => if m.inPlace c t then (.list (vs ++ [w]), d) else (.list vs, false))
    fun v p => deserVecE o env cfg m c t (c.insert env vs v) p
partial_fixpoint

/-- The elements of an array or tuple, as `deserFix`. -/
def deserFixE (o : POps σ) (env : Env) (cfg : Cfg) (m : Mess σ) (tyAt : Nat → Option Ty) (i : Nat) (vs : List Val) (p : PI σ) : Res (Eff σ) :=
  step (p.getToken o) (.list vs) false fun (k, p) =>
  if k = .ArrayEnd then .ok (.done (.list vs) p) else
  match tyAt i, vs[i]? with
  | some t, some w =>
    into (deserE o env cfg m t w (p.pushBackToken k)) (fun w d => (.list (vs.set i w), d))
      fun v p => deserFixE o env cfg m tyAt (i + 1) (vs.set i v) p
  | _, _ => .ub
partial_fixpoint

/-- The members of an associative container, as `deserDict`: `object[key]` (SerUtil.h:620) makes the entry of a `std::map` before it is
parsed into; the others insert afterwards. -/
def deserDictE (o : POps σ) (env : Env) (cfg : Cfg) (m : Mess σ) (kind : DictKind) (t : Ty) (kvs : List (Bytes × Val)) (p : PI σ) : Res (Eff σ) :=
  step (p.getToken o) (.dict kvs) false fun (k, p) =>
  if k = .MapEnd then .ok (.done (.dict kvs) p) else
  step (p.lift (o.getKey p.inner)) (.dict kvs) false fun (key, p) =>
  into (deserE o env cfg m t (match kind with
      | .sorted => (dictGet key kvs).getD (t.default env)
      | _ => t.default env) p)
    (fun w d => match kind with
      | .sorted => (.dict (dictSet key w kvs), d)
      | _ => (.dict kvs, false))
    fun v p => deserDictE o env cfg m kind t (match kind with
      | .sorted => dictSet key v kvs
      | .multi => multiInsert key v kvs
      | .unordered => uniqueInsert key v kvs) p
partial_fixpoint

/-- An object of class type, as `deserClass`. -/
def deserClassE (o : POps σ) (env : Env) (cfg : Cfg) (m : Mess σ) (d : StructDef) (old : Val) (p : PI σ) : Res (Eff σ) :=
  step (p.getToken o) old false fun (k, p) =>
  if k ≠ .MapStart then .ok (.threw .std old false) else
  deserMembersE o env cfg m d [] old p
partial_fixpoint

/-- The members of a class, as `deserMembers`: each is parsed where it lies. -/
def deserMembersE (o : POps σ) (env : Env) (cfg : Cfg) (m : Mess σ) (d : StructDef) (found : List Bytes) (old : Val) (p : PI σ) : Res (Eff σ) :=
  step (p.getToken o) old false fun (k, p) =>
  if k = .MapEnd then
    if cfg.strict = .Exact ∧ d.heed found = false then .ok (.threw .std old false) else .ok (.done old p)
  else
  step (p.lift (o.getKey p.inner)) old false fun (key, p) =>
  match d.find key with
  | none => step (p.ignoreValue o cfg.strict) old false fun p => deserMembersE o env cfg m d found old p
  | some slot =>
    match old.field slot.path slot.index with
    | none => .ub
    | some w =>
      into (deserE o env cfg m slot.ty w p) (fun w d => (old.setField slot.path slot.index w, d))
        fun v p => deserMembersE o env cfg m d (key :: found) (old.setField slot.path slot.index v) p
partial_fixpoint
end

/-- Importer.h:35-98: the object after the call, and whether a pointer in it dangles, whether the call returns or throws. What follows `parse`,
the check for trailing data and the destructor, does not touch the object. -/
noncomputable def objectAfter (o : POps σ) (env : Env) (cfg : Cfg) (m : Mess σ) (ty : Ty) (old : Val) (p : PI σ) : Res (Val × Bool) := do
  match ← step (p.getToken o) old false fun (k, p) =>
    if k ≠ .DocStart then .ok (.threw .std old false) else deserE o env cfg m ty old p with
  | .done v _ => return (v, false)
  | .threw _ w d => return (w, d)

end Thors
