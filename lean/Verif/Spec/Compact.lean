import Verif.Spec.JsonText
/-
The text of a JSON value without insignificant white space.
-/
namespace Thors.Spec
open Thors StrIn

/-- Text of a scalar as it was written. -/
def JScalar.written : JScalar → Bytes
  | .null => b!"null"
  | .bool b => if b then b!"true" else b!"false"
  | .int t _ => t
  | .frac t _ => t
  | .str s => [0x22] ++ s.raw ++ [0x22]

/-- Text of a tree without white space; `key` is how a key is written between its quotes. -/
def compactWith (key : JStr → Bytes) : JTree → Bytes
  | .scalar x => x.written
  | .arr vs => [0x5B] ++ commas (elems vs) ++ [0x5D]
  | .obj ms => [0x7B] ++ commas (members ms) ++ [0x7D]
where
  elems : List JTree → List Bytes
  | [] => []
  | v :: vs => compactWith key v :: elems vs
  members : List (JStr × JTree) → List Bytes
  | [] => []
  | (k, v) :: ms => ([0x22] ++ key k ++ [0x22, 0x3A] ++ compactWith key v) :: members ms

/-- Text of a tree without white space, keys as they were written. -/
def compact (v : JTree) : Bytes := compactWith JStr.raw v

/-- A string written without escapes. -/
def JStr.plain (s : JStr) : Bool := !s.raw.contains 0x5C

/-- Every string value in the tree satisfies `p`. -/
def allStrings (p : JStr → Bool) : JTree → Bool
  | .scalar (.str s) => p s
  | .scalar _ => true
  | .arr vs => elems vs
  | .obj ms => members ms
where
  elems : List JTree → Bool
  | [] => true
  | v :: vs => allStrings p v && elems vs
  members : List (JStr × JTree) → Bool
  | [] => true
  | (_, v) :: ms => allStrings p v && members ms

/-- Every key in the tree satisfies `p`. -/
def allKeys (p : JStr → Bool) : JTree → Bool
  | .scalar _ => true
  | .arr vs => elems vs
  | .obj ms => members ms
where
  elems : List JTree → Bool
  | [] => true
  | v :: vs => allKeys p v && elems vs
  members : List (JStr × JTree) → Bool
  | [] => true
  | (k, v) :: ms => p k && (allKeys p v && members ms)

end Thors.Spec
