import Verif.Spec.Range
import Verif.Spec.Float
import Verif.Spec.Sets
import Verif.Model.Types
/-
Specification: the values of a C++ type.
-/
namespace Thors.Spec
open Thors StrIn

/-- The elements of a container are in its order: nothing for a vector, strictly ascending in a set, ascending in a multiset, no two
equal ones in an unordered set. The standard asks for a proper comparison. -/
def InSeqOrder (env : Env) : SeqKind → List Val → Prop
  | .back, _ => True
  | .sorted c, vs => StrictWeak (env.less c) → vs.Pairwise fun a b => env.less c a b = true
  | .multi c, vs => StrictWeak (env.less c) → vs.Pairwise fun a b => env.less c b a = false
  | .hashed c, vs => vs.Pairwise fun a b => env.less c a b = false

mutual
/-- A value of the type: numbers are in its range, enumerators are declared ones, an array has its length, the content of containers and
pointers is of the content's type, a pointer to a polymorphic class points to an object of that class or a derived one, a variant
holds one of its alternatives, an object has the members and bases of its class. -/
def HasType (env : Env) : Ty → Val → Prop
  | .int k, .int i => 0 < k.bits → InRange k i
  | .flt f, .flt x => f ∈ [f32, f64, f80] → IsFlt f x
  | .bool, .bool _ => True
  | .str, .str _ => True
  | .seq c t, .list vs => HaveType env t vs ∧ InSeqOrder env c vs
  | .arr n t, .list vs => vs.length = n ∧ HaveType env t vs
  | .smap t, .dict kvs => DictHas env t kvs ∧ kvs.Pairwise fun p q => keyLt p.1 q.1 = true
  | .mmap t, .dict kvs => DictHas env t kvs ∧ kvs.Pairwise fun p q => keyLt q.1 p.1 = false
  | .umap t, .dict kvs => DictHas env t kvs ∧ (kvs.map Prod.fst).Nodup
  | .opt _, .none => True
  | .opt t, .some v => HasType env t v
  | .uptr _, .null => True
  | .uptr t, .ptr v => HasType env t v
  | .pptr _, .null => True
  | .pptr b, .dyn c v => env.derives c b = true ∧ HasType env (.named c) v
  | .named i, .obj ps fs =>
    match env.defs i with
    | .cls ⟨.mk dps ms _, _, _⟩ => OwnHave env ms fs ∧ ParentsHave env dps ps
    | _ => False
  | .named i, .list vs =>
    match env.defs i with
    | .tuple ts => TupleHas env ts vs
    | _ => False
  | .named i, .enum n =>
    match env.defs i with
    | .enum table => n ∈ table.map Prod.fst
    | _ => False
  | .named i, .alt c v =>
    match env.defs i with
    | .variant alts => c ∈ alts ∧ HasType env (.named c) v
    | _ => False
  | _, _ => False
termination_by structural _ v => v
/-- All elements are of the type. -/
def HaveType (env : Env) : Ty → List Val → Prop
  | _, [] => True
  | t, v :: vs => HasType env t v ∧ HaveType env t vs
termination_by structural _ vs => vs
/-- All mapped values are of the type. -/
def DictHas (env : Env) : Ty → List (Bytes × Val) → Prop
  | _, [] => True
  | t, (_, v) :: kvs => HasType env t v ∧ DictHas env t kvs
termination_by structural _ kvs => kvs
/-- The elements of a tuple. -/
def TupleHas (env : Env) : List Ty → List Val → Prop
  | [], [] => True
  | t :: ts, v :: vs => HasType env t v ∧ TupleHas env ts vs
  | _, _ => False
termination_by structural _ vs => vs
/-- The members of a class. -/
def OwnHave (env : Env) : List Member → List Val → Prop
  | [], [] => True
  | m :: ms, v :: vs => HasType env m.ty v ∧ OwnHave env ms vs
  | _, _ => False
termination_by structural _ vs => vs
/-- The bases of a class. -/
def ParentsHave (env : Env) : List StructDef → List Val → Prop
  | [], [] => True
  | .mk dps ms _ :: ds, .obj ps fs :: vs => OwnHave env ms fs ∧ ParentsHave env dps ps ∧ ParentsHave env ds vs
  | _, _ => False
termination_by structural _ vs => vs
end

/-- The value initialised objects of the named types are values of their type. -/
def DefaultsTyped (env : Env) : Prop := ∀ i, HasType env (.named i) (env.dflt i)

end Thors.Spec
