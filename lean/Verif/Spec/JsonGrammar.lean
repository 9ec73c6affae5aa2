import Verif.Model.JsonLexer
/-
Specification: the shape of a JSON value over lexical classes (RFC 8259 section 2: structural characters,
strings, numbers, literals), and the events a streaming reader should report for it.
-/
namespace Thors.Spec

/-- A JSON value without the contents of its scalars. In `obj` the list holds the member values; every
member has a key. -/
inductive Shape
  | scalar (x : Lexeme)
  | arr (xs : List Shape)
  | obj (xs : List Shape)

/-- The five lexical classes of scalars. -/
def isScalar : Lexeme → Bool
  | .true_ | .false_ | .null_ | .string | .number => true
  | _ => false

/-- Join phrases with commas. -/
def commaSep : List (List Lexeme) → List Lexeme
  | [] => []
  | [x] => x
  | x :: y :: xs => x ++ .comma :: commaSep (y :: xs)

namespace Shape

/-- All scalars of the shape are scalar lexemes. -/
def ok : Shape → Bool
  | scalar x => isScalar x
  | arr xs => oks xs
  | obj xs => oks xs
where oks : List Shape → Bool
  | [] => true
  | x :: xs => x.ok && oks xs

/-- The grammar of RFC 8259: how a value is written. -/
def lexemes : Shape → List Lexeme
  | scalar x => [x]
  | arr xs => .lbracket :: commaSep (elems xs) ++ [.rbracket]
  | obj xs => .lbrace :: commaSep (members xs) ++ [.rbrace]
where
  elems : List Shape → List (List Lexeme)
  | [] => []
  | x :: xs => x.lexemes :: elems xs
  members : List Shape → List (List Lexeme)
  | [] => []
  | x :: xs => (.string :: .colon :: x.lexemes) :: members xs

/-- The events of a value. -/
def events : Shape → List Tok
  | scalar _ => [.Value]
  | arr xs => .ArrayStart :: elemEvents xs ++ [.ArrayEnd]
  | obj xs => .MapStart :: memberEvents xs ++ [.MapEnd]
where
  elemEvents : List Shape → List Tok
  | [] => []
  | x :: xs => x.events ++ elemEvents xs
  memberEvents : List Shape → List Tok
  | [] => []
  | x :: xs => .Key :: x.events ++ memberEvents xs

end Shape
end Thors.Spec
