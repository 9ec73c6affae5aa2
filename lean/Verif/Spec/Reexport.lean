import Verif.Spec.RoundTrip
import Verif.Spec.Typed
/-
Specification: types whose values can all be exported and brought back.
-/
namespace Thors.Spec
open Thors

/-- The comparison of a set or multiset is a strict weak order. -/
def WeakOrder (env : Env) : SeqKind → Prop
  | .sorted c => StrictWeak (env.less c)
  | .multi c => StrictWeak (env.less c)
  | _ => True

section
variable (env : Env) (marker : Bytes)

/-- All values of the type can be exported and brought back:
 * an optional is the type of a class member (`member`), not of an element and not behind a pointer;
 * a pointer does not point to a pointer;
 * the comparison of a set is a strict weak order;
 * the classes derived from the class of a polymorphic pointer are registered under their names and use the same marker; the
   alternatives of a variant are classes with different names and the same marker;
 * a class that is used as a plain value has no type field name. -/
def Solid : Bool → Ty → Prop
  | _, .int k => 0 < k.bits
  | _, .flt f => f ∈ [f32, f64, f80]
  | _, .bool => True
  | _, .str => True
  | _, .seq k t => WeakOrder env k ∧ Solid false t
  | _, .arr _ t => Solid false t
  | _, .smap t => Solid false t
  | _, .mmap t => Solid false t
  | _, .umap t => Solid false t
  | member, .opt t => member = true ∧ Solid false t
  | _, .uptr t => nullable t = false ∧ Solid false t
  | _, .pptr b => ∀ c, env.derives c b = true → ∃ d, env.defs c = .cls d ∧ env.registry.lookup d.serName = some c ∧ polyMarker env marker c = polyMarker env marker b
  | _, .named i =>
    match env.defs i with
    | .cls d => d.typeField = none
    | .variant alts => ∀ c ∈ alts, ∃ d, env.defs c = .cls d ∧ polyMarker env marker c = polyMarker env marker (alts.headD 0) ∧
        ∀ a e, a ∈ alts → env.defs a = .cls e → e.serName = d.serName → a = c
    | _ => True

/-- The members of all classes and the elements of all tuples are of such types; no class has a filter of the user. -/
structure SolidTypes : Prop where
  members : ∀ i c, env.defs i = .cls c → ∀ m ∈ allMembers c.traits, Solid env marker true m.ty
  tuples : ∀ i ts, env.defs i = .tuple ts → ∀ t ∈ ts, Solid env marker false t
  filters : ∀ i c, env.defs i = .cls c → NoFilter c.traits

end
end Thors.Spec
