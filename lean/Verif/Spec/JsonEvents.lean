import Verif.Model.JsonOps
import Verif.Spec.JsonText
/-
Specification: what a client of the JSON token interface sees.

`JEv` are the events of a document with their payloads. `Sees s es s'` says that a client who calls
`getNextToken`, and after every key or value reads it with the getter of its kind, starting from the parser
state `s`, sees the events `es` and ends in `s'`.
-/
namespace Thors.Spec
open Thors

inductive JEv
  | mapStart | mapEnd | arrayStart | arrayEnd
  | key (k : Bytes)
  | null
  | bool (b : Bool)
  | str (s : Bytes)
  | num (text : Bytes)
  deriving DecidableEq, Repr

namespace JEv

/-- The token of an event. -/
def tok : JEv → Tok
  | mapStart => .MapStart
  | mapEnd => .MapEnd
  | arrayStart => .ArrayStart
  | arrayEnd => .ArrayEnd
  | key _ => .Key
  | _ => .Value

end JEv

/-- The client reads the key or value just announced. Null values are recognised with `isValueNull` and
skipped; numbers are taken as text with `getRawValue`. -/
inductive Takes : JsonP → JEv → JsonP → Prop
  | mapStart {s} : Takes s .mapStart s
  | mapEnd {s} : Takes s .mapEnd s
  | arrayStart {s} : Takes s .arrayStart s
  | arrayEnd {s} : Takes s .arrayEnd s
  | key {s k s'} (h : s.getKey = .ok (k, s')) : Takes s (.key k) s'
  | null {s s'} (hn : s.isValueNull = true) (h : s.ignoreDataValue = .ok s') : Takes s .null s'
  | bool {s b s'} (hn : s.isValueNull = false) (h : s.getBool = .ok (b, s')) : Takes s (.bool b) s'
  | str {s b s'} (hn : s.isValueNull = false) (h : s.getStr = .ok (b, s')) : Takes s (.str b) s'
  | num {s b s'} (hn : s.isValueNull = false) (h : s.getRaw = .ok (b, s')) : Takes s (.num b) s'

inductive Sees : JsonP → List JEv → JsonP → Prop
  | nil {s} : Sees s [] s
  | cons {s s1 s2 s' e es} (hn : s.getNextToken = .ok (e.tok, s1)) (ht : Takes s1 e s2) (h : Sees s2 es s') : Sees s (e :: es) s'

/-- The event of a scalar. -/
def JScalar.event (conv : Bool) : JScalar → JEv
  | .null => .null
  | .bool b => .bool b
  | .int t _ => .num t
  | .frac t _ => .num t
  | .str s => .str (s.val conv)

/-- The events of a document, in order. -/
def jevents (conv : Bool) : JTree → List JEv
  | .scalar x => [x.event conv]
  | .arr vs => .arrayStart :: elems vs ++ [.arrayEnd]
  | .obj ms => .mapStart :: members ms ++ [.mapEnd]
where
  elems : List JTree → List JEv
  | [] => []
  | v :: vs => jevents conv v ++ elems vs
  members : List (JStr × JTree) → List JEv
  | [] => []
  | (k, v) :: ms => .key (k.val conv) :: jevents conv v ++ members ms

end Thors.Spec
