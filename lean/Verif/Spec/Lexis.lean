import Verif.Spec.JsonText
import Verif.Model.Types
/-
Specification: the structure of JSON texts (RFC 8259 sections 2 to 5) over any lexical rules for white space, scalars and keys; the rules of
the RFC, and the laxer ones of this library.
-/
namespace Thors.Spec
open Thors StrIn

/-- Lexical rules. -/
structure Lexis where
  space : Byte → Prop
  scalar : Bytes → Prop
  key : Bytes → Prop

namespace Lexis

/-- White space between the lexemes. -/
def Space (g : Lexis) (w : Bytes) : Prop := ∀ c ∈ w, g.space c

mutual
/-- The text of a value. -/
inductive Value (g : Lexis) : Bytes → Prop
  | scalar {t : Bytes} (h : g.scalar t) : Value g t
  | arr0 {w : Bytes} (hw : g.Space w) : Value g ([0x5B] ++ w ++ [0x5D])
  | arr {t w : Bytes} (h : Elems g t) (hw : g.Space w) : Value g ([0x5B] ++ t ++ w ++ [0x5D])
  | obj0 {w : Bytes} (hw : g.Space w) : Value g ([0x7B] ++ w ++ [0x7D])
  | obj {t w : Bytes} (h : Members g t) (hw : g.Space w) : Value g ([0x7B] ++ t ++ w ++ [0x7D])
/-- The elements of an array: values separated by commas. -/
inductive Elems (g : Lexis) : Bytes → Prop
  | one {w v : Bytes} (hw : g.Space w) (hv : Value g v) : Elems g (w ++ v)
  | more {t w1 w2 v : Bytes} (h : Elems g t) (h1 : g.Space w1) (h2 : g.Space w2) (hv : Value g v) : Elems g (t ++ (w1 ++ [0x2C] ++ w2) ++ v)
/-- The members of an object: pairs of a key and a value separated by commas. -/
inductive Members (g : Lexis) : Bytes → Prop
  | one {w k w1 w2 v : Bytes} (hw : g.Space w) (hk : g.key k) (h1 : g.Space w1) (h2 : g.Space w2) (hv : Value g v) :
      Members g (w ++ k ++ (w1 ++ [0x3A] ++ w2) ++ v)
  | more {t w w' k w1 w2 v : Bytes} (h : Members g t) (hw : g.Space w) (hw' : g.Space w') (hk : g.key k) (h1 : g.Space w1) (h2 : g.Space w2)
      (hv : Value g v) : Members g (t ++ (w ++ [0x2C] ++ w') ++ k ++ (w1 ++ [0x3A] ++ w2) ++ v)
end

/-- A document: a value with white space in front. -/
def Doc (g : Lexis) (t : Bytes) : Prop := ∃ w v, g.Space w ∧ g.Value v ∧ t = w ++ v

end Lexis

/-- The text of a string of RFC 8259. -/
def StringText (t : Bytes) : Prop := ∃ body o, Body rfcPair body o ∧ t = [0x22] ++ body ++ [0x22]

/-- The lexical rules of RFC 8259. -/
def rfc : Lexis where
  space c := c = 0x20 ∨ c = 0x09 ∨ c = 0x0A ∨ c = 0x0D
  scalar t := ∃ x, ScalarText rfcPair x t
  key := StringText

/-! ### the rules of the library -/

/-- Types that occur in a type: those of its elements, its members, the classes its pointers can point to. -/
inductive Occurs (env : Env) (ty : Ty) : Ty → Prop
  | self : Occurs env ty ty
  | seq {k t} (h : Occurs env ty (.seq k t)) : Occurs env ty t
  | arr {n t} (h : Occurs env ty (.arr n t)) : Occurs env ty t
  | smap {t} (h : Occurs env ty (.smap t)) : Occurs env ty t
  | mmap {t} (h : Occurs env ty (.mmap t)) : Occurs env ty t
  | umap {t} (h : Occurs env ty (.umap t)) : Occurs env ty t
  | opt {t} (h : Occurs env ty (.opt t)) : Occurs env ty t
  | uptr {t} (h : Occurs env ty (.uptr t)) : Occurs env ty t
  | pptr {b n c} (h : Occurs env ty (.pptr b)) (hc : env.registry.lookup n = some c) : Occurs env ty (.named c)
  | tuple {i t} {ts : List Ty} (h : Occurs env ty (.named i)) (hi : env.defs i = .tuple ts) (ht : t ∈ ts) : Occurs env ty t
  | alt {i c} {alts : List Nat} (h : Occurs env ty (.named i)) (hi : env.defs i = .variant alts) (hc : c ∈ alts) : Occurs env ty (.named c)
  | member {i d k s} (h : Occurs env ty (.named i)) (hi : env.defs i = .cls d) (hs : d.traits.find k = some s) : Occurs env ty s.ty

/-- Not the digit zero and then another digit that is not zero. -/
def NoZero (t : Bytes) : Prop := ¬ ∃ d r, t = 0x30 :: d :: r ∧ isDigit d = true ∧ d ≠ 0x30

/-- A text read as an integer: digits, with a minus sign in front if the type is signed. -/
def WholeText (signed : Bool) (t : Bytes) : Prop := NoZero t ∧ ∃ ds, Digits ds ∧ (t = ds ∨ (signed = true ∧ t = 0x2D :: ds))

/-- Digits and a fraction, one of which may be missing, and an exponent. -/
def LooseDecimal (t : Bytes) : Prop :=
  ∃ a f e, (a = [] ∨ Digits a) ∧ (f = [] ∨ ∃ ds, (ds = [] ∨ Digits ds) ∧ f = 0x2E :: ds) ∧ (Digits a ∨ ∃ ds, Digits ds ∧ f = 0x2E :: ds) ∧
    Expo e ∧ t = a ++ f ++ e

/-- The words for infinity and for what is not a number. -/
def SpecialText (t : Bytes) : Prop := t.map lower = b!"infinity" ∨ t.map lower = b!"inf" ∨ t.map lower = b!"nan"

/-- A text read as a floating point number. -/
def RealText (t : Bytes) : Prop := NoZero t ∧ ∃ u, (LooseDecimal u ∨ SpecialText u) ∧ (t = u ∨ t = 0x2D :: u)

/-- Every quote in the body is behind a backslash that is not itself escaped. -/
inductive Enclosed : Bytes → Prop
  | nil : Enclosed []
  | plain {c t} (h1 : c ≠ 0x22) (h2 : c ≠ 0x5C) (h : Enclosed t) : Enclosed (c :: t)
  | esc {c t} (h : Enclosed t) : Enclosed (0x5C :: c :: t)

/-- A text read as a string: with `convertBackSlash` off, the escapes are not looked at. -/
def StrText (conv : Bool) (t : Bytes) : Prop :=
  if conv then StringText t else ∃ body, Enclosed body ∧ t = [0x22] ++ body ++ [0x22]

/-- A text read as a null pointer: four characters, of which the first is an `n`. -/
def NullText (t : Bytes) : Prop := ∃ a b c, t = [0x6E, a, b, c]

/-- A string that is skipped: it ends at the first quote that does not follow a backslash. -/
def SkipString (t : Bytes) : Prop :=
  ∃ body, t = [0x22] ++ body ++ [0x22] ∧ body.getLast? ≠ some 0x5C ∧ ∀ a b, body = a ++ 0x22 :: b → a.getLast? = some 0x5C

/-- A number that is skipped: that of RFC 8259, or with a plus sign, or with a byte 0xFF behind it. -/
def SkipNumber (t : Bytes) : Prop :=
  ∃ sg a f e z, (sg = [] ∨ sg = [0x2D] ∨ sg = [0x2B]) ∧ Digits a ∧ (a.head? = some 0x30 → a = [0x30]) ∧ Frac f ∧ Expo e ∧ (z = [] ∨ z = [0xFF]) ∧
    t = sg ++ a ++ f ++ e ++ z

/-- A scalar that is skipped. Of a literal only the first letter and the length count. -/
def SkipText (t : Bytes) : Prop :=
  (∃ a b c, t = [0x74, a, b, c]) ∨ (∃ a b c d, t = [0x66, a, b, c, d]) ∨ NullText t ∨ SkipNumber t ∨ SkipString t

/-- The lexical rules of an import into a type of which the types `S` are part. -/
def lax (S : Ty → Prop) (weak : Prop) (conv : Bool) : Lexis where
  space c := c = 0x20 ∨ c = 0x09 ∨ c = 0x0A ∨ c = 0x0D ∨ c = 0x0B ∨ c = 0x0C
  scalar t := (∃ k, S (.int k) ∧ WholeText k.signed t) ∨ (∃ f, S (.flt f) ∧ RealText t) ∨ (S .bool ∧ (t = b!"true" ∨ t = b!"false")) ∨ StrText conv t ∨
    (((∃ e, S (.uptr e)) ∨ ∃ b, S (.pptr b)) ∧ NullText t) ∨ (weak ∧ SkipText t)
  key t := StrText conv t ∨ (weak ∧ SkipString t)

end Thors.Spec
