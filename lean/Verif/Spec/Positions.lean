import Verif.Spec.Tree
/-
Specification vocabulary for structs: which object of a document goes into which class, what a class knows
and declares, and which documents differ only in the order of struct members.
-/
namespace Thors.Spec
open Thors

/-- All members of a class, inherited ones included. -/
def allMembers : StructDef → List Member
  | .mk ps ms _ => ms ++ inherited ps
where inherited : List StructDef → List Member
  | [] => []
  | p :: ps => allMembers p ++ inherited ps

section
variable {K X : Type} (sem : ScalarSem K X) (env : Env) (cfg : Cfg)

mutual
/-- Importing the document `v` into a variable of type `ty` imports (at some depth) the object with members
`ms` into an object of class `d`. -/
inductive Inside (d : StructDef) (ms : List (K × Tr K X)) : Ty → Tr K X → Prop
  | cls {i : Nat} {c : ClassDef} {ms' : List (K × Tr K X)} : env.defs i = .cls c → InsideCls d ms c.traits ms' → Inside d ms (.named i) (.obj ms')
  | vec {k : SeqKind} {ty : Ty} {ts : List (Tr K X)} {t : Tr K X} : t ∈ ts → Inside d ms ty t → Inside d ms (.seq k ty) (.arr ts)
  | arr {n i : Nat} {ty : Ty} {ts : List (Tr K X)} {t : Tr K X} : ts[i]? = some t → Inside d ms ty t → Inside d ms (.arr n ty) (.arr ts)
  | tuple {n i : Nat} {tys : List Ty} {ty : Ty} {ts : List (Tr K X)} {t : Tr K X} : env.defs n = .tuple tys → tys[i]? = some ty →
      ts[i]? = some t → Inside d ms ty t → Inside d ms (.named n) (.arr ts)
  | smap {ty : Ty} {ms' : List (K × Tr K X)} {k : K} {t : Tr K X} : (k, t) ∈ ms' → Inside d ms ty t → Inside d ms (.smap ty) (.obj ms')
  | mmap {ty : Ty} {ms' : List (K × Tr K X)} {k : K} {t : Tr K X} : (k, t) ∈ ms' → Inside d ms ty t → Inside d ms (.mmap ty) (.obj ms')
  | umap {ty : Ty} {ms' : List (K × Tr K X)} {k : K} {t : Tr K X} : (k, t) ∈ ms' → Inside d ms ty t → Inside d ms (.umap ty) (.obj ms')
  | opt {ty : Ty} {v : Tr K X} : Inside d ms ty v → Inside d ms (.opt ty) v
  | uptr {ty : Ty} {v : Tr K X} : Inside d ms ty v → Inside d ms (.uptr ty) v
  | pptr {b n : Nat} {c : ClassDef} {k : K} {x : X} {name : Bytes} {rest : List (K × Tr K X)} : sem.readStr x = .ok name →
      env.registry.lookup name = some n → env.defs n = .cls c → InsideCls d ms c.traits rest →
      Inside d ms (.pptr b) (.obj ((k, .scalar x) :: rest))
  | variant {i n : Nat} {alts : List Nat} {c : ClassDef} {k : K} {x : X} {name : Bytes} {rest : List (K × Tr K X)} :
      env.defs i = .variant alts → sem.readStr x = .ok name →
      pickAlt env cfg (polyMarker env cfg.marker (alts.headD 0)) name alts = some n → env.defs n = .cls c →
      InsideCls d ms c.traits rest → Inside d ms (.named i) (.obj ((k, .scalar x) :: rest))
/-- The same, when members `ms'` are imported into an object of class `d'`. -/
inductive InsideCls (d : StructDef) (ms : List (K × Tr K X)) : StructDef → List (K × Tr K X) → Prop
  | here : InsideCls d ms d ms
  | member {d' : StructDef} {ms' : List (K × Tr K X)} {k : K} {t : Tr K X} {slot : StructDef.Slot} : (k, t) ∈ ms' →
      d'.find (sem.key k) = some slot → Inside d ms slot.ty t → InsideCls d ms d' ms'
end

/-- `Reord ty v v'`: the documents differ only in the order of the members of objects that are imported into
structs (whose keys are distinct), when imported into a variable of type `ty`. -/
inductive Reord : Ty → Tr K X → Tr K X → Prop
  | refl {ty : Ty} (v : Tr K X) : Reord ty v v
  | trans {ty : Ty} {a b c : Tr K X} : Reord ty a b → Reord ty b c → Reord ty a c
  | perm {i : Nat} {c : ClassDef} {ms ms' : List (K × Tr K X)} : env.defs i = .cls c → ms.Perm ms' → (ms.map (fun m => sem.key m.1)).Nodup →
      Reord (.named i) (.obj ms) (.obj ms')
  | member {i : Nat} {c : ClassDef} {a b : List (K × Tr K X)} {k : K} {t t' : Tr K X} {slot : StructDef.Slot} : env.defs i = .cls c →
      c.traits.find (sem.key k) = some slot → Reord slot.ty t t' →
      Reord (.named i) (.obj (a ++ (k, t) :: b)) (.obj (a ++ (k, t') :: b))
  | vec {k : SeqKind} {ty : Ty} {a b : List (Tr K X)} {t t' : Tr K X} : Reord ty t t' → Reord (.seq k ty) (.arr (a ++ t :: b)) (.arr (a ++ t' :: b))
  | smap {ty : Ty} {a b : List (K × Tr K X)} {k : K} {t t' : Tr K X} : Reord ty t t' →
      Reord (.smap ty) (.obj (a ++ (k, t) :: b)) (.obj (a ++ (k, t') :: b))
  | mmap {ty : Ty} {a b : List (K × Tr K X)} {k : K} {t t' : Tr K X} : Reord ty t t' →
      Reord (.mmap ty) (.obj (a ++ (k, t) :: b)) (.obj (a ++ (k, t') :: b))
  | umap {ty : Ty} {a b : List (K × Tr K X)} {k : K} {t t' : Tr K X} : Reord ty t t' →
      Reord (.umap ty) (.obj (a ++ (k, t) :: b)) (.obj (a ++ (k, t') :: b))
  | opt {ty : Ty} {v v' : Tr K X} : Reord ty v v' → Reord (.opt ty) v v'
  | uptr {ty : Ty} {v v' : Tr K X} : Reord ty v v' → Reord (.uptr ty) v v'

/-- The pointee or content type behind optionals and pointers. -/
def peel : Ty → Ty
  | .opt t => peel t
  | .uptr t => peel t
  | t => t

/-- The type of element number `i` when an array is imported into a variable of type `ty`. -/
def elemTy (ty : Ty) (i : Nat) : Option Ty :=
  match peel ty with
  | .seq _ t => some t
  | .arr _ t => some t
  | .named n => match env.defs n with
    | .tuple ts => ts[i]?
    | _ => none
  | _ => none

/-- The type of the member with key `k` when an object is imported into a variable of type `ty`: `none` if
members are not imported at all (a type mismatch), `some none` if the class does not know the member. Members
of objects imported through polymorphic pointers and variants count as known, with no type. -/
def memberTy (ty : Ty) (k : K) : Option (Option Ty) :=
  match peel ty with
  | .smap t => some (some t)
  | .mmap t => some (some t)
  | .umap t => some (some t)
  | .named n => match env.defs n with
    | .cls c => some ((c.traits.find (sem.key k)).map StructDef.Slot.ty)
    | _ => none
  | _ => none

/-- The document without the members that are unknown to the classes they are imported into, at every depth
(except behind polymorphic pointers and variants). -/
def prune : Tr K X → Ty → Tr K X
  | .scalar x, _ => .scalar x
  | .arr ts, ty => .arr (elems ts ty 0)
  | .obj ms, ty => .obj (members ms ty)
where
  elems : List (Tr K X) → Ty → Nat → List (Tr K X)
  | [], _, _ => []
  | t :: ts, ty, i => (match elemTy env ty i with
    | some e => prune t e
    | none => t) :: elems ts ty (i + 1)
  members : List (K × Tr K X) → Ty → List (K × Tr K X)
  | [], _ => []
  | (k, t) :: ms, ty => match memberTy sem env ty k with
    | none => (k, t) :: members ms ty
    | some (some e) => (k, prune t e) :: members ms ty
    | some none => members ms ty

end
end Thors.Spec
