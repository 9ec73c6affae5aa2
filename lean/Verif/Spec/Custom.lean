import Verif.Model.Custom
import Verif.Spec.Tree
/-
What users expect of a class that writes and reads itself with `operator<<` and `operator>>`.
-/
namespace Thors.Spec
open Thors

variable {V K X : Type}

/-- `operator>>` accepts what `operator<<` writes and makes the same value of it, whatever the object held before. -/
def Streamed.Undoes (S : Streamed V) (v : V) : Prop := ∀ old, S.get (S.put v) old = (v, true)

/-- All the objects in a value. -/
def CVal.All (P : V → Prop) : CVal V → Prop
  | .one v => P v
  | .vec vs => ∀ v ∈ vs, P v

/-- The second value is one the first can be read into: an object, whatever it holds, or an empty vector. -/
def CVal.Place : CVal V → CVal V → Prop
  | .one _, .one _ => True
  | .vec _, .vec vs => vs = []
  | _, _ => False

/-- The document for a value: a scalar, or an array of scalars. -/
def CVal.tree (f : V → X) : CVal V → Tr K X
  | .one v => .scalar (f v)
  | .vec vs => .arr (vs.map fun v => .scalar (f v))

/-- The texts of the values in an array, if they are scalars whose text the reader can give. -/
def rawTexts (raw : X → Option Bytes) : List (Tr K X) → Option (List Bytes)
  | [] => some []
  | .scalar x :: ts => (raw x).bind fun b => (rawTexts raw ts).map (b :: ·)
  | _ :: _ => none

/-- The value that should be there after `operator>>` has read the texts of the document: into the object there is, or into new objects behind those
there are in a vector. `none`: the document has another shape. -/
def CVal.read (S : Streamed V) (raw : X → Option Bytes) : CVal V → Tr K X → Option (CVal V)
  | .one v, .scalar x => (raw x).map fun b => .one (S.get b v).1
  | .vec vs, .arr ts => (rawTexts raw ts).map fun bs => .vec (vs ++ bs.map fun b => (S.get b S.fresh).1)
  | _, _ => none

end Thors.Spec
