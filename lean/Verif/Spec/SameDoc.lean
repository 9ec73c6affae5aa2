import Verif.Spec.Bson
import Verif.Spec.JsonText
/-
Specification: a JSON document and a BSON document that say the same.
-/
namespace Thors.Spec
open StrIn

/-- The same scalar in both formats. An integer literal is an int32 or an int64 (BSON has no minus zero among the integers), a
number with a fraction or an exponent is the double nearest to it, a string has the bytes the JSON text denotes. -/
def SameScalar (conv : Bool) : JScalar → BScalar → Prop
  | .null, .null => True
  | .bool b, .bool c => b = c
  | .int t i, .int32 v => v = i ∧ (t.head? = some 0x2D ↔ i < 0)
  | .int t i, .int64 v => v = i ∧ (t.head? = some 0x2D ↔ i < 0)
  | .frac _ d, .fixed .double p => d.toFlt f64 = some (payloadDouble p)
  | .str s, .str c => c = s.val conv
  | _, _ => False

/-- The same document in both formats: same shape, same keys in the same order, same scalars. -/
def SameDoc (conv : Bool) : JTree → BTree → Prop
  | .scalar x, .scalar y => SameScalar conv x y
  | .arr ts, .arr us => elems ts us
  | .obj ms, .obj ns => members ms ns
  | _, _ => False
where
  /-- the same elements -/
  elems : List JTree → List BTree → Prop
  | [], [] => True
  | t :: ts, u :: us => SameDoc conv t u ∧ elems ts us
  | _, _ => False
  /-- the same members -/
  members : List (JStr × JTree) → List (Bytes × BTree) → Prop
  | [], [] => True
  | (k, t) :: ms, (l, u) :: ns => l = k.val conv ∧ SameDoc conv t u ∧ members ms ns
  | _, _ => False

/-- No number of the document has a fraction or an exponent. -/
def WholeNumbers : JTree → Prop
  | .scalar (.frac _ _) => False
  | .scalar _ => True
  | .arr ts => elems ts
  | .obj ms => members ms
where
  /-- of the elements -/
  elems : List JTree → Prop
  | [] => True
  | t :: ts => WholeNumbers t ∧ elems ts
  /-- of the members -/
  members : List (JStr × JTree) → Prop
  | [] => True
  | (_, t) :: ms => WholeNumbers t ∧ members ms

end Thors.Spec
