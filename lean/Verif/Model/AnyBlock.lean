import Verif.Model.Parser
/-
Model of `AnyBlock`: a raw value captured as text
(`/repo/src/Serialize/Traits.h:928-945`, `/repo/src/Serialize/Serialize.tpp:664-788`).
-/
namespace Thors
open StrIn

variable {σ : Type}

/-- Traits.h:930-945, class `AnyBlock`: its only data member is a `std::stringstream` that is only ever
appended to, here the text written so far. -/
abbrev AnyBlk := Bytes

mutual
/-- The `switch (tokenType)` that Serialize.tpp:673-701 (`scanObject`), 720-740 (`readMap`) and 758-780
(`readArray`) have in common, with the token already read: `openMap`, `openArray` and `addValue` are
Traits.h:937-942. -/
def anyToken (o : POps σ) (t : Tok) (a : AnyBlk) (p : PI σ) : Res (AnyBlk × PI σ) :=
  match t with
  | .MapStart => anyMap o true (a ++ [0x7B]) p
  | .ArrayStart => anyArray o true (a ++ [0x5B]) p
  | .Value => do
    let (b, s) ← o.getRaw p.inner
    return (a ++ b, { p with inner := s })
  | _ => throwStd
partial_fixpoint

/-- Serialize.tpp:702-747 `readMap`, one turn of its loop; `first` is `firstValue`. `addKey` (Traits.h:941)
writes what `getKey` returns between quotes, and a colon. -/
def anyMap (o : POps σ) (first : Bool) (a : AnyBlk) (p : PI σ) : Res (AnyBlk × PI σ) := do
  let (t, p) ← p.getToken o
  if t = .MapEnd then return (a ++ [0x7D], p)
  else if t ≠ .Key then throwStd
  else do
    let a := if first then a else a ++ [0x2C]
    let (k, s) ← o.getKey p.inner
    let a := a ++ [0x22] ++ k ++ [0x22, 0x3A]
    let (t, p) ← { p with inner := s }.getToken o
    let (a, p) ← anyToken o t a p
    anyMap o false a p
partial_fixpoint

/-- Serialize.tpp:748-787 `readArray`, one turn of its loop. -/
def anyArray (o : POps σ) (first : Bool) (a : AnyBlk) (p : PI σ) : Res (AnyBlk × PI σ) := do
  let (t, p) ← p.getToken o
  if t = .ArrayEnd then return (a ++ [0x5D], p)
  else do
    let a := if first then a else a ++ [0x2C]
    let (a, p) ← anyToken o t a p
    anyArray o false a p
partial_fixpoint
end

/-- Serialize.tpp:673-701 `scanObject`. -/
def anyScan (o : POps σ) (a : AnyBlk) (p : PI σ) : Res (AnyBlk × PI σ) := do
  let (t, p) ← p.getToken o
  anyToken o t a p

/-- Serialize.h:250-283, the root `DeSerializer` around `parse`, for an `AnyBlock` that holds the text `a`. -/
def importAny (o : POps σ) (a : AnyBlk) (p : PI σ) : Res (AnyBlk × PI σ) := do
  let (k, p) ← p.getToken o
  if k ≠ .DocStart then throwStd else
  let (v, p) ← anyScan o a p
  let (k, p) ← p.getToken o
  if k ≠ .DocEnd then throwStd else
  return (v, p)

end Thors
