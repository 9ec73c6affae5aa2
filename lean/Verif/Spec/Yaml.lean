import Verif.Spec.Tree
import Verif.Model.Yaml
import Verif.Spec.Doc
/-
Specification for YAML: values as trees, the events libyaml reports for them, what scalars mean.
-/
namespace Thors.Spec
open Thors StrIn

/-- A YAML value with scalars (and scalar keys) as text. -/
abbrev YTree := Tr Bytes Bytes

/-- The events of a value. -/
def yevents : YTree → List YEv
  | .scalar x => [.scalar x]
  | .arr vs => .seqStart :: elems vs ++ [.seqEnd]
  | .obj ms => .mapStart :: members ms ++ [.mapEnd]
where
  elems : List YTree → List YEv
  | [] => []
  | v :: vs => yevents v ++ elems vs
  members : List (Bytes × YTree) → List YEv
  | [] => []
  | (k, v) :: ms => .scalar k :: yevents v ++ members ms

/-- The events of a document. -/
def ydoc (v : YTree) : List YEv := [.streamStart, .docStart] ++ yevents v ++ [.docEnd, .streamEnd]

/-- The tokens of a value: what a reader of any format has to report for it. -/
def treeToks {K X : Type} : Tr K X → List Tok
  | .scalar _ => [.Value]
  | .arr vs => .ArrayStart :: elems vs ++ [.ArrayEnd]
  | .obj ms => .MapStart :: members ms ++ [.MapEnd]
where
  elems : List (Tr K X) → List Tok
  | [] => []
  | v :: vs => treeToks v ++ elems vs
  members : List (K × Tr K X) → List Tok
  | [] => []
  | (_, v) :: ms => .Key :: treeToks v ++ members ms

/-- The texts of a value in the order of its tokens: of keys and scalars; nothing for the others. -/
def texts : YTree → List (Option Bytes)
  | .scalar x => [some x]
  | .arr vs => none :: elems vs ++ [none]
  | .obj ms => none :: members ms ++ [none]
where
  elems : List YTree → List (Option Bytes)
  | [] => []
  | v :: vs => texts v ++ elems vs
  members : List (Bytes × YTree) → List (Option Bytes)
  | [] => []
  | (k, v) :: ms => some k :: texts v ++ members ms

/-- What the scalars of YAML mean. -/
def ysem : ScalarSem Bytes Bytes where
  isNull t := decide (t = b!"null" ∨ t = b!"~")
  readInt k t := YamlP.scanText k t
  readFlt f t := YamlP.scanTextFlt f t
  readBool t := if t = b!"true" then .ok true else if t = b!"false" then .ok false else throwStd
  readStr t := .ok t
  raw t := some t
  skips _ := true
  key k := k
  keySkips _ := true

/-- The YAML text of a scalar of a document (plain style; libyaml puts quotes around a text where it has to). -/
def yatom : Atom → Bytes
  | .null => b!"null"
  | .bool b => if b then b!"true" else b!"false"
  | .int _ i => intText i
  | .flt f x => general6 f x
  | .str s => s

/-- A document as a YAML value. -/
def ytree : Doc → YTree
  | .scalar a => .scalar (yatom a)
  | .arr ts => .arr (elems ts)
  | .obj ms => .obj (members ms)
where
  elems : List Doc → List YTree
  | [] => []
  | t :: ts => ytree t :: elems ts
  members : List (Bytes × Doc) → List (Bytes × YTree)
  | [] => []
  | (k, t) :: ms => (k, ytree t) :: members ms

/-- A node of a YAML document as libyaml sees it: aliases, and any node as a key. -/
inductive YNode
  | scalar (text : Bytes)
  | alias
  | seq (ns : List YNode)
  | map (ms : List (YNode × YNode))

/-- The events of a node. -/
def nodeEvents : YNode → List YEv
  | .scalar t => [.scalar t]
  | .alias => [.alias]
  | .seq ns => .seqStart :: elems ns ++ [.seqEnd]
  | .map ms => .mapStart :: members ms ++ [.mapEnd]
where
  elems : List YNode → List YEv
  | [] => []
  | n :: ns => nodeEvents n ++ elems ns
  members : List (YNode × YNode) → List YEv
  | [] => []
  | (k, v) :: ms => nodeEvents k ++ (nodeEvents v ++ members ms)

/-- A value as a node. -/
def ynode : YTree → YNode
  | .scalar t => .scalar t
  | .arr vs => .seq (elems vs)
  | .obj ms => .map (members ms)
where
  elems : List YTree → List YNode
  | [] => []
  | v :: vs => ynode v :: elems vs
  members : List (Bytes × YTree) → List (YNode × YNode)
  | [] => []
  | (k, v) :: ms => (.scalar k, ynode v) :: members ms

/-- The YAML value written by the flow-style text of a JSON value: strings as they are read by the JSON reader,
everything else as it is spelled. -/
def asYaml (conv : Bool) : JTree → YTree
  | .scalar .null => .scalar b!"null"
  | .scalar (.bool b) => .scalar (if b then b!"true" else b!"false")
  | .scalar (.int t _) => .scalar t
  | .scalar (.frac t _) => .scalar t
  | .scalar (.str s) => .scalar (s.val conv)
  | .arr vs => .arr (elems vs)
  | .obj ms => .obj (members ms)
where
  elems : List JTree → List YTree
  | [] => []
  | v :: vs => asYaml conv v :: elems vs
  members : List (JStr × JTree) → List (Bytes × YTree)
  | [] => []
  | (k, v) :: ms => (k.val conv, asYaml conv v) :: members ms

end Thors.Spec
