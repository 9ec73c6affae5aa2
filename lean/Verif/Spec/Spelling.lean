import Verif.Spec.JsonText
import Verif.Spec.Float
/-
Specification: two JSON documents that say the same in different words (C140).
-/
namespace Thors.Spec
open Thors StrIn

/-- The same scalar, perhaps spelled differently: strings that denote the same bytes (the letter A and the escape `\u0041`); the same number with a fraction or an exponent (`1.5`, `1.50`, `15e-1`);
the same integer (`0` and `-0` are different). -/
def SameWord : JScalar → JScalar → Prop
  | .null, .null => True
  | .bool b, .bool c => b = c
  | .int t i, .int u j => i = j ∧ (t.head? = some 0x2D ↔ u.head? = some 0x2D)
  | .frac _ x, .frac _ y => SameNumber x y
  | .str s, .str r => s.dec = r.dec
  | _, _ => False

/-- The same document: same shape, keys that denote the same bytes in the same order, same scalars. -/
def SameWords : JTree → JTree → Prop
  | .scalar x, .scalar y => SameWord x y
  | .arr ts, .arr us => elems ts us
  | .obj ms, .obj ns => members ms ns
  | _, _ => False
where
  /-- the same elements -/
  elems : List JTree → List JTree → Prop
  | [], [] => True
  | t :: ts, u :: us => SameWords t u ∧ elems ts us
  | _, _ => False
  /-- the same members -/
  members : List (JStr × JTree) → List (JStr × JTree) → Prop
  | [], [] => True
  | (k, t) :: ms, (l, u) :: ns => k.dec = l.dec ∧ SameWords t u ∧ members ms ns
  | _, _ => False

end Thors.Spec
