/-
Basic vocabulary of the model: bytes, outcomes of C++ calls, parser tokens.
-/
namespace Thors

/-- A `char` stored in memory (8 bits). `std::string` is a list of them. -/
abbrev Byte := UInt8
abbrev Bytes := List UInt8

open Lean in
/-- `b!"abc"` is the list of the bytes of the literal `"abc"`. -/
macro:max "b!" s:str : term => do
  let bytes := s.getString.toUTF8.toList
  let elems ← bytes.mapM fun b => `(($(quote b.toNat) : UInt8))
  let arr := elems.toArray
  `([$arr,*])

/-- The kinds of exception the Importer/Exporter distinguish (Importer.h:64-97, Exporter.h:47-78):
`DepricatedIssue`, any other class derived from `std::exception`, anything else. -/
inductive Exc
  | deprecated
  | std
  | unknown
  deriving DecidableEq, Repr

/-- Outcome of a C++ call. `ub` is undefined behaviour: an access outside a buffer, `back()` of an
empty vector, a read of an indeterminate value. It is a separate outcome and is never assumed away. -/
inductive Res (α : Type u) where
  | ok (a : α)
  | throw (e : Exc)
  | ub
  deriving Repr, DecidableEq

namespace Res

/-- Sequencing of calls: an exception or undefined behaviour ends the sequence. -/
def bind {α : Type u} {β : Type v} : Res α → (α → Res β) → Res β
  | ok a, f => f a
  | throw e, _ => throw e
  | ub, _ => ub

instance : Monad Res where
  pure := Res.ok
  bind := Res.bind

@[simp] theorem pure_eq {α : Type u} (a : α) : (pure a : Res α) = ok a := rfl
@[simp] theorem ok_bind {α β : Type u} (a : α) (f : α → Res β) : (ok a >>= f) = f a := rfl
@[simp] theorem throw_bind {α β : Type u} (e : Exc) (f : α → Res β) : ((throw e : Res α) >>= f) = throw e := rfl
@[simp] theorem ub_bind {α β : Type u} (f : α → Res β) : ((ub : Res α) >>= f) = ub := rfl

theorem bind_eq_ok {α β : Type u} {x : Res α} {f : α → Res β} {b : β} :
    (x >>= f) = ok b ↔ ∃ a, x = ok a ∧ f a = ok b := by
  cases x <;> simp

theorem bind_ne_ub {α β : Type u} {x : Res α} {f : α → Res β}
    (hx : x ≠ ub) (hf : ∀ a, x = ok a → f a ≠ ub) : (x >>= f) ≠ ub := by
  cases x <;> simp_all

end Res

/-- A `ThorsLogAndThrowError(std::runtime_error, ...)`. -/
abbrev throwStd {α : Type u} : Res α := .throw .std

/-- ThorsSerializerUtilTypes.h:16 `enum class ParseType`. -/
inductive ParseType
  | Weak | Strict | Exact
  deriving DecidableEq, Repr

/-- ThorsSerializerUtilTypes.h:17 `enum class ParserToken`. -/
inductive Tok
  | Error | DocStart | DocEnd | MapStart | MapEnd | ArrayStart | ArrayEnd | Key | Value
  deriving DecidableEq, Repr

/-- Case analysis over all 256 bytes. -/
theorem forall_byte {P : UInt8 → Prop} (h : ∀ i : Fin 256, P (UInt8.ofFin i)) (b : UInt8) : P b := by
  have := h b.toFin
  simpa using this

end Thors
