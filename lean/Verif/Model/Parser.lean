import Verif.Model.StringInput
import Verif.Model.Float
/-
Model of `/repo/src/Serialize/ParserInterface.{h,cpp}`: the format independent reader.

Functions that recurse through the input (here `ignoreTheValue`, in `Deser.lean` the deserialiser) are
defined with Lean's `partial_fixpoint`: they are least fixed points in the flat order whose bottom is
`Res.ub`, so a run that never ends counts as undefined behaviour and every theorem that concludes `ok` or
`throw` also says that the run ends.
-/
namespace Thors
open Lean.Order StrIn

noncomputable instance {α : Type u} : PartialOrder (Res α) := inferInstanceAs (PartialOrder (FlatOrder (Res.ub : Res α)))
noncomputable instance {α : Type u} : CCPO (Res α) := inferInstanceAs (CCPO (FlatOrder (Res.ub : Res α)))
noncomputable instance : MonoBind Res where
  bind_mono_left {_ _ a₁ a₂ f} h := by
    cases h
    · exact FlatOrder.rel.bot
    · exact FlatOrder.rel.refl
  bind_mono_right {_ _ a f₁ f₂} h := by
    cases a
    · exact h _
    · exact FlatOrder.rel.refl
    · exact FlatOrder.rel.refl

/-- ParserInterface.h:153-185, the virtual functions a format implements, over its own state `σ` (the
input included). Omitted: `formatType`, and `ignoreDataMap` /
`ignoreDataArray`, which do nothing in JSON and YAML (ParserInterface.h:160-161) and in BSON only call the
user's `ignoreCallBack`, whose default does nothing (BsonParser.cpp:175-204,
ThorsSerializerUtilTypes.h:31). -/
structure POps (σ : Type) where
  /-- `getNextToken` -/
  next : σ → Res (Tok × σ)
  /-- `getKey` -/
  getKey : σ → Res (Bytes × σ)
  /-- `getValue` of the eight integer types -/
  getInt : IntKind → σ → Res (Int × σ)
  /-- `getValue` of the floating point types -/
  getFlt : FKind → σ → Res (Flt × σ)
  /-- `getValue(bool&)` -/
  getBool : σ → Res (Bool × σ)
  /-- `getValue(std::string&)` -/
  getStr : σ → Res (Bytes × σ)
  /-- `isValueNull` -/
  isNull : σ → Bool
  /-- `ignoreDataValue` -/
  ignoreData : σ → Res σ
  /-- `getRawValue` -/
  getRaw : σ → Res (Bytes × σ)

/-- ParserInterface.h:344-352, the data members of `ParserInterface`: the pushed back tokens on top of the
state of the concrete parser (which holds the `input`). `savedSharedPtr` is in `Shared.lean`. -/
structure PI (σ : Type) where
  inner : σ
  pb1 : Tok
  pb2 : Tok
  deriving DecidableEq, Repr

namespace PI

/-- ParserInterface.h:136-147, the constructors. -/
def init {σ : Type} (s : σ) : PI σ := ⟨s, .Error, .Error⟩

/-- ParserInterface.cpp:9-18 `getToken`. -/
def getToken {σ : Type} (o : POps σ) (p : PI σ) : Res (Tok × PI σ) :=
  if p.pb2 ≠ .Error then .ok (p.pb2, { p with pb2 := .Error })
  else if p.pb1 ≠ .Error then .ok (p.pb1, { p with pb1 := .Error })
  else do
    let (t, s) ← o.next p.inner
    return (t, { p with inner := s })

/-- ParserInterface.cpp:21-37 `pushBackToken` (built without `VALIDATE_EXTRA_PUSH_BACK_TOKEN`). -/
def pushBackToken {σ : Type} (p : PI σ) (t : Tok) : PI σ :=
  if p.pb1 = .Error then { p with pb1 := t }
  else if p.pb2 = .Error then { p with pb2 := t }
  else p

end PI

mutual
/-- ParserInterface.cpp:119-163 `ignoreTheValue`. It calls `getNextToken`, not `getToken`. -/
def ignoreTheValue {σ : Type} (o : POps σ) (s : σ) : Res σ := do
  let (t, s) ← o.next s
  match t with
  | .Value => o.ignoreData s
  | .MapStart => ignoreTheMap o s
  | .ArrayStart => ignoreTheArray o s
  | _ => throwStd
partial_fixpoint

/-- ParserInterface.cpp:54-70 `ignoreTheMap`, from the evaluation of the loop condition on. -/
def ignoreTheMap {σ : Type} (o : POps σ) (s : σ) : Res σ := do
  let (t, s) ← o.next s
  if t = .MapEnd then return s else
  let s ← o.ignoreData s
  if t ≠ .Key then throwStd else
  let s ← ignoreTheValue o s
  ignoreTheMap o s
partial_fixpoint

/-- ParserInterface.cpp:73-116 `ignoreTheArray`, from the evaluation of the loop condition on. -/
def ignoreTheArray {σ : Type} (o : POps σ) (s : σ) : Res σ := do
  let (t, s) ← o.next s
  match t with
  | .ArrayEnd => return s
  | .Value => do
    let s ← o.ignoreData s
    ignoreTheArray o s
  | .MapStart => do
    let s ← ignoreTheMap o s
    ignoreTheArray o s
  | .ArrayStart => do
    let s ← ignoreTheArray o s
    ignoreTheArray o s
  | _ => throwStd
partial_fixpoint
end

/-- ParserInterface.cpp:40-51 `ignoreValue`. -/
def PI.ignoreValue {σ : Type} (o : POps σ) (strict : ParseType) (p : PI σ) : Res (PI σ) :=
  if strict ≠ .Weak then throwStd
  else do
    let s ← ignoreTheValue o p.inner
    return { p with inner := s }

end Thors
