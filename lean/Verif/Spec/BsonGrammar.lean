import Verif.Spec.Bson
import Verif.Spec.Lexis
/-
Specification: the structure of BSON documents (bsonspec.org, version 1.1) as a grammar of bytes, over any rules for the scalars and for the
keys of arrays; the rules of the standard, and the laxer ones of this library.
-/
namespace Thors.Spec
open Thors StrIn

/-- What can vary: which payloads a type byte of a scalar can have, and the key of the element with a given index. -/
structure BRules where
  scalar : Byte → Bytes → Prop
  index : Nat → Bytes → Prop

namespace BRules

mutual
/-- `Payload t p`: the bytes `p` are a value of the element type `t`. The length in front of the elements of a document or array is that of
all its bytes. -/
inductive Payload (g : BRules) : Byte → Bytes → Prop
  | scalar {t : Byte} {p : Bytes} (h : g.scalar t p) : Payload g t p
  | obj {es : Bytes} (h : Members g es) (hl : (framed es).length < 2 ^ 31) : Payload g 0x03 (framed es)
  | arr {n : Nat} {es : Bytes} (h : Elements g n es) (hl : (framed es).length < 2 ^ 31) : Payload g 0x04 (framed es)
/-- The members of a document: type byte, key, terminator, value. -/
inductive Members (g : BRules) : Bytes → Prop
  | none : Members g []
  | more {es k p : Bytes} {t : Byte} (h : Members g es) (hk : (0x00 : Byte) ∉ k) (hp : Payload g t p) : Members g (es ++ (t :: k ++ [0x00] ++ p))
/-- The `n` elements of an array. -/
inductive Elements (g : BRules) : Nat → Bytes → Prop
  | none : Elements g 0 []
  | more {n : Nat} {es k p : Bytes} {t : Byte} (h : Elements g n es) (hk : (0x00 : Byte) ∉ k) (hi : g.index n k) (hp : Payload g t p) :
      Elements g (n + 1) (es ++ (t :: k ++ [0x00] ++ p))
end

/-- A whole document for a C++ type whose values are stored as objects, as arrays, or (scalars) as the only member of an object. -/
def Doc (g : BRules) : BCont → Bytes → Prop
  | .Map, u => g.Payload 0x03 u
  | .Array, u => g.Payload 0x04 u
  | .Value, u => ∃ (t : Byte) (k p : Bytes), (0x00 : Byte) ∉ k ∧ g.Payload t p ∧ u = framed (t :: k ++ [0x00] ++ p) ∧ u.length < 2 ^ 31

end BRules

/-- The rules of the standard (without the element types that `BScalar` leaves out). -/
def bstandard : BRules where
  scalar t p := ∃ x : BScalar, x.valid ∧ x.code = t ∧ x.payload = p
  index n k := k = decimal n

/-! ### the rules of the library -/

/-- A length and that many bytes behind it. -/
def Counted (s : Bytes) (p : Bytes) : Prop := s.length < 2 ^ 31 ∧ p = le 4 s.length ++ s

/-- A scalar that is skipped: only its length counts. -/
def BSkipped (t : Byte) (p : Bytes) : Prop :=
  (t = 0x01 ∧ p.length = 8) ∨ (t = 0x13 ∧ p.length = 16) ∨ (t = 0x10 ∧ p.length = 4) ∨ (t = 0x12 ∧ p.length = 8) ∨ (t = 0x07 ∧ p.length = 12) ∨
  (t = 0x08 ∧ p.length = 1) ∨ (t = 0x09 ∧ p.length = 8) ∨ (t = 0x11 ∧ p.length = 8) ∨ (t = 0x0A ∧ p = []) ∨ (t = 0x02 ∧ ∃ s, Counted s p) ∨
  (t = 0x05 ∧ ∃ (b : Byte) (s : Bytes), s.length < 2 ^ 31 ∧ p = le 4 s.length ++ b :: s)

/-- The scalars this library reads into the types of `S`, and skips if `weak`. The terminator of a string can be any byte. -/
def blaxScalar (S : Ty → Prop) (weak : Prop) (t : Byte) (p : Bytes) : Prop :=
  (((∃ k, S (.int k)) ∨ ∃ f, S (.flt f)) ∧ ((t = 0x10 ∧ p.length = 4) ∨ (t = 0x12 ∧ p.length = 8))) ∨
  ((∃ f, S (.flt f)) ∧ t = 0x01 ∧ p.length = 8) ∨
  (S .bool ∧ t = 0x08 ∧ (p = [0x00] ∨ p = [0x01])) ∨
  (t = 0x02 ∧ ∃ s, s ≠ [] ∧ Counted s p) ∨
  (((∃ e, S (.uptr e)) ∨ ∃ b, S (.pptr b)) ∧ t = 0x0A ∧ p = []) ∨
  (weak ∧ BSkipped t p)

/-- The rules of the library: the keys of arrays are not looked at. -/
def blax (S : Ty → Prop) (weak : Prop) : BRules where
  scalar := blaxScalar S weak
  index _ _ := True

end Thors.Spec
