import Verif.Spec.Positions
/-
Specification: objects that differ only in what default initialisation leaves indeterminate.
-/
namespace Thors.Spec
open Thors StrIn

mutual
/-- Two states in which the declaration `T value;` may leave a variable of the type: numbers, booleans and
enumerations can have any value, and so can those that are members of a class, at any depth; everything else (strings,
containers, optionals, pointers, arrays) is the same. -/
inductive Alike (env : Env) : Ty → Val → Val → Prop
  | same (ty : Ty) (v : Val) : Alike env ty v v
  | int (k : IntKind) (a b : Int) : Alike env (.int k) (.int a) (.int b)
  | flt (f : FKind) (a b : Flt) : Alike env (.flt f) (.flt a) (.flt b)
  | bool (a b : Bool) : Alike env .bool (.bool a) (.bool b)
  | enum {i : Nat} {table : List (Int × Bytes)} (a b : Int) : env.defs i = .enum table → Alike env (.named i) (.enum a) (.enum b)
  | cls {i : Nat} {c : ClassDef} {v w : Val} : env.defs i = .cls c → AlikeObj env c.traits v w → Alike env (.named i) v w
/-- The same for two objects of a class. -/
inductive AlikeObj (env : Env) : StructDef → Val → Val → Prop
  | obj {ps : List StructDef} {ms : List Member} {f : Option (Val → Bytes → Bool)} {bs cs fs gs : List Val} :
    AlikeOwn env ms fs gs → AlikeParents env ps bs cs → AlikeObj env (.mk ps ms f) (.obj bs fs) (.obj cs gs)
inductive AlikeOwn (env : Env) : List Member → List Val → List Val → Prop
  | nil : AlikeOwn env [] [] []
  | cons {m : Member} {ms : List Member} {a b : Val} {fs gs : List Val} : Alike env m.ty a b → AlikeOwn env ms fs gs →
    AlikeOwn env (m :: ms) (a :: fs) (b :: gs)
inductive AlikeParents (env : Env) : List StructDef → List Val → List Val → Prop
  | nil : AlikeParents env [] [] []
  | cons {p : StructDef} {ps : List StructDef} {a b : Val} {bs cs : List Val} : AlikeObj env p a b → AlikeParents env ps bs cs →
    AlikeParents env (p :: ps) (a :: bs) (b :: cs)
end

/-- Within each class, inherited members included, the declared names are distinct, and so are the names used in
documents. -/
def Distinct (env : Env) : Prop :=
  ∀ i c, env.defs i = .cls c → ((allMembers c.traits).map Member.name).Nodup ∧ ((allMembers c.traits).map Member.out).Nodup

end Thors.Spec
