import Verif.Spec.Positions
/-
Specification: a document without the members that are given again later.
-/
namespace Thors.Spec
open Thors StrIn

/-- Types whose old value is replaced as a whole when something is read: numbers, `bool`, strings, enumerations and pointers. -/
def Replaced (env : Env) : Ty → Prop
  | .int _ | .flt _ | .bool | .str | .uptr _ | .pptr _ => True
  | .named i => ∃ table, env.defs i = .enum table
  | _ => False

section
variable {K X : Type} (sem : ScalarSem K X) (env : Env)

/-- `LastOnly ty v v'`: `v'` is `v` without members, of objects that are imported into classes, that the same object gives again later on, when imported into a
variable of type `ty`. Only members of a type that is replaced as a whole are left out. -/
inductive LastOnly : Ty → Tr K X → Tr K X → Prop
  | refl {ty : Ty} (v : Tr K X) : LastOnly ty v v
  | trans {ty : Ty} {a b c : Tr K X} : LastOnly ty a b → LastOnly ty b c → LastOnly ty a c
  | drop {i : Nat} {c : ClassDef} {a b : List (K × Tr K X)} {k : K} {t : Tr K X} {slot : StructDef.Slot} : env.defs i = .cls c →
      c.traits.find (sem.key k) = some slot → Replaced env slot.ty → (∃ m ∈ b, sem.key m.1 = sem.key k) →
      LastOnly (.named i) (.obj (a ++ (k, t) :: b)) (.obj (a ++ b))
  | member {i : Nat} {c : ClassDef} {a b : List (K × Tr K X)} {k : K} {t t' : Tr K X} {slot : StructDef.Slot} : env.defs i = .cls c →
      c.traits.find (sem.key k) = some slot → LastOnly slot.ty t t' →
      LastOnly (.named i) (.obj (a ++ (k, t) :: b)) (.obj (a ++ (k, t') :: b))
  | vec {k : SeqKind} {ty : Ty} {a b : List (Tr K X)} {t t' : Tr K X} : LastOnly ty t t' → LastOnly (.seq k ty) (.arr (a ++ t :: b)) (.arr (a ++ t' :: b))
  | smap {ty : Ty} {a b : List (K × Tr K X)} {k : K} {t t' : Tr K X} : LastOnly ty t t' →
      LastOnly (.smap ty) (.obj (a ++ (k, t) :: b)) (.obj (a ++ (k, t') :: b))
  | mmap {ty : Ty} {a b : List (K × Tr K X)} {k : K} {t t' : Tr K X} : LastOnly ty t t' →
      LastOnly (.mmap ty) (.obj (a ++ (k, t) :: b)) (.obj (a ++ (k, t') :: b))
  | umap {ty : Ty} {a b : List (K × Tr K X)} {k : K} {t t' : Tr K X} : LastOnly ty t t' →
      LastOnly (.umap ty) (.obj (a ++ (k, t) :: b)) (.obj (a ++ (k, t') :: b))
  | opt {ty : Ty} {v v' : Tr K X} : LastOnly ty v v' → LastOnly (.opt ty) v v'
  | uptr {ty : Ty} {v v' : Tr K X} : LastOnly ty v v' → LastOnly (.uptr ty) v v'

end
end Thors.Spec
