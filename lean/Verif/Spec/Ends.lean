import Verif.Spec.RoundTrip
/-
Specification: the types and the objects for which an import is expected to come to an end without undefined behaviour,
whatever the document.
-/
namespace Thors.Spec
open Thors

/-- The entry of a type in the environment is a class. -/
def isClass (env : Env) (c : Nat) : Prop := ∃ d, env.defs c = .cls d

/-- `num`: numbers are allowed. No `std::array` (documents can be longer than the array), no `std::tuple` (the same); unless
`nul`, no container of elements that `null` can stand for, other than as the values of a map; the classes that are registered for
a base class are derived from it. -/
def Sound (env : Env) (num nul : Bool) : Ty → Prop
  | .int _ => num = true
  | .flt _ => num = true
  | .bool => True
  | .str => True
  | .seq _ t => (nul = true ∨ nullable t = false) ∧ Sound env num nul t
  | .arr _ _ => False
  | .smap t => Sound env num nul t
  | .mmap t => Sound env num nul t
  | .umap t => Sound env num nul t
  | .opt t => Sound env num nul t
  | .uptr t => Sound env num nul t
  | .pptr b => ∀ n c, (n, c) ∈ env.registry → env.derives c b = true ∧ isClass env c
  | .named i => ∀ ts, env.defs i ≠ .tuple ts

/-- The types of all members of a class and of its parents. -/
def SoundStruct (env : Env) (num nul : Bool) : StructDef → Prop
  | .mk ps ms _ => (∀ m ∈ ms, Sound env num nul m.ty) ∧ SoundParents ps
where SoundParents : List StructDef → Prop
  | [] => True
  | p :: ps => SoundStruct env num nul p ∧ SoundParents ps

mutual
/-- An object of that type, as far as reading into it is concerned: containers are containers, optionals and the elements of
a `std::map`, which are read in place, are objects of their type; objects of a class have its members and bases. -/
def Shaped (env : Env) : Ty → Val → Prop
  | .seq _ _, .list _ => True
  | .seq _ _, _ => False
  | .smap t, .dict kvs => ShapedDict env t kvs
  | .smap _, _ => False
  | .mmap _, .dict _ => True
  | .mmap _, _ => False
  | .umap _, .dict _ => True
  | .umap _, _ => False
  | .opt t, .some v => Shaped env t v
  | .named i, .obj ps fs =>
    match env.defs i with
    | .cls ⟨.mk dps ms _, _, _⟩ => ShapedOwn env ms fs ∧ ShapedParents env dps ps
    | _ => True
  | .named i, _ =>
    match env.defs i with
    | .cls _ => False
    | _ => True
  | _, _ => True
termination_by structural _ v => v
def ShapedDict (env : Env) : Ty → List (Bytes × Val) → Prop
  | _, [] => True
  | t, (_, v) :: kvs => Shaped env t v ∧ ShapedDict env t kvs
termination_by structural _ kvs => kvs
def ShapedOwn (env : Env) : List Member → List Val → Prop
  | [], [] => True
  | m :: ms, v :: vs => Shaped env m.ty v ∧ ShapedOwn env ms vs
  | _, _ => False
termination_by structural _ vs => vs
def ShapedParents (env : Env) : List StructDef → List Val → Prop
  | [], [] => True
  | .mk dps ms _ :: ds, .obj ps fs :: vs => ShapedOwn env ms fs ∧ ShapedParents env dps ps ∧ ShapedParents env ds vs
  | _, _ => False
termination_by structural _ vs => vs
end

/-- All types of a program: the members of the classes, the alternatives of the variants, and the value initialised objects. -/
structure SoundTypes (env : Env) (num nul : Bool) : Prop where
  cls : ∀ i d, env.defs i = .cls d → SoundStruct env num nul d.traits
  alts : ∀ i cs, env.defs i = .variant cs → ∀ c ∈ cs, isClass env c
  dflt : ∀ i, Shaped env (.named i) (env.dflt i)

end Thors.Spec
