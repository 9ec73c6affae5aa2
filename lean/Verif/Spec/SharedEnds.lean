import Verif.Model.Shared
import Verif.Spec.Ends
/-
Specification: the types with shared pointers for which an import is expected to come to an end without undefined behaviour.
-/
namespace Thors.Spec
open Thors

/-- `null` can stand for an element of the type, and is looked for without asking for a value. A shared pointer asks. -/
def loosely : STy → Bool
  | .plain t => nullable t
  | _ => false

/-- As `Sound`: the parts without shared pointers are sound; unless `nul`, no sequence of elements for which `null` can stand, other
than shared pointers. -/
def SSound (env : Env) (num nul : Bool) : STy → Prop
  | .plain t => Sound env num nul t
  | .cls _ => True
  | .vec t => (nul = true ∨ loosely t = false) ∧ SSound env num nul t
  | .shared t => SSound env num nul t

/-- All types of a program. -/
structure SSoundTypes (S : SEnv) (num nul : Bool) : Prop where
  plain : SoundTypes S.env num nul
  cls : ∀ c, ∀ m ∈ S.classes c, SSound S.env num nul m.2

end Thors.Spec
