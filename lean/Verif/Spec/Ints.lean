import Verif.Model.Deser
/-
Specification: which number types a program uses.
-/
namespace Thors
open StrIn

/-- Every integer type that occurs in the type (outside of classes and tuples) satisfies `P`, and every floating point type
satisfies `F`. -/
def Ty.ints (P : IntKind → Prop) (F : FKind → Prop := fun _ => True) : Ty → Prop
  | .int k => P k
  | .flt f => F f
  | .seq _ t | .arr _ t | .opt t | .uptr t | .smap t | .mmap t | .umap t => t.ints P F
  | _ => True

/-- The same for the members of a class. -/
def StructDef.ints (P : IntKind → Prop) (F : FKind → Prop := fun _ => True) (d : StructDef) : Prop :=
  ∀ key slot, d.find key = some slot → slot.ty.ints P F

/-- The same for the classes and tuples of the program. -/
def Env.ints (P : IntKind → Prop) (F : FKind → Prop := fun _ => True) (env : Env) : Prop := ∀ i,
  match env.defs i with
  | .cls d => d.traits.ints P F
  | .tuple ts => ∀ t ∈ ts, t.ints P F
  | _ => True

/-- The integer types of the code (Serialize.h:56-68 and the `getValue` overloads): up to 64 bits. -/
def usual (k : IntKind) : Prop := 0 < k.bits ∧ k.bits ≤ 64

end Thors
