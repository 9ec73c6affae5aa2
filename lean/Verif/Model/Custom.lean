import Verif.Model.Parser
import Verif.Model.JsonPrinter
import Verif.Model.BsonPrinter
import Verif.Model.Yaml
import Verif.Model.JsonParser
import Verif.Model.JsonStream
import Verif.Model.BsonParser
import Verif.Model.BsonStream
/-
Model of the classes registered with `ThorsAnvil_MakeTraitCustom` (`TraitType::Custom_Depricated`), which write and read themselves with
`operator<<` and `operator>>` (`/repo/src/Serialize/Traits.h:726-740`, `/repo/src/Serialize/Serialize.tpp:294-321, 967-996`,
`/repo/src/Serialize/ThorsSerializerUtil.h:262-300`), alone and in a `std::vector`.
-/
namespace Thors
open StrIn

/-- What a class brings with it: a value made by the default constructor, the text `operator<<` puts into an empty stream, what
`operator>>` makes of an object when it reads from a stream with the given text (`false`: the stream is left in a failed state), and the size function
of ThorsSerializerUtil.h:262-267, if the class has one. -/
structure Streamed (V : Type) where
  fresh : V
  put : V → Bytes
  get : Bytes → V → V × Bool
  size : Option (V → Nat)

/-- A value: one object or a `std::vector` of them. -/
inductive CVal (V : Type)
  | one (v : V)
  | vec (vs : List V)

section
variable {V : Type} (S : Streamed V)

/-! ### Writing -/

/-- Serialize.tpp:984-995 `printMembers` with JsonPrinter.cpp:318 `addRawValue`: the text goes through `escapeString`. -/
def customPutJson (cfg : PrintCfg) (v : V) (ss : List JPrint.PState) : Res (List Write × List JPrint.PState) :=
  JPrint.value cfg ((escapeWrites (S.put v)).map .chars) ss

/-- The elements of a `std::vector`, SerUtil.h:225-232. -/
def customPutsJson (cfg : PrintCfg) : List V → List JPrint.PState → Res (List Write × List JPrint.PState)
  | [], ss => .ok ([], ss)
  | v :: vs, ss => do
    let (a, ss) ← customPutJson S cfg v ss
    let (b, ss) ← customPutsJson cfg vs ss
    return (a ++ b, ss)

/-- `stream << jsonExporter(x)`. -/
def customJson (cfg : PrintCfg) : CVal V → Res Bytes
  | .one v => do
    let (w, _) ← customPutJson S cfg v JPrint.init
    return bytesOf w
  | .vec vs => do
    let (a, ss) ← JPrint.step cfg (.openArray 0) JPrint.init
    let (b, ss) ← customPutsJson S cfg vs ss
    let (c, _) ← JPrint.step cfg .closeArray ss
    return bytesOf (a ++ b ++ c)

/-- BsonPrinter.h:88 `addRawValue`, BsonPrinter.cpp:264-270 `writeBinary`: binary data of subtype 0x80. -/
def customPutBson (v : V) (s : BPrint.St) : Res (List Write × BPrint.St) :=
  BPrint.element 0x05 [.chars (leBytes 4 ((S.put v).length : Nat)), .chars [0x80], .chars (S.put v)] s

/-- The elements of a `std::vector`, SerUtil.h:225-232. -/
def customPutsBson : List V → BPrint.St → Res (List Write × BPrint.St)
  | [], s => .ok ([], s)
  | v :: vs, s => do
    let (a, s) ← customPutBson S v s
    let (b, s) ← customPutsBson vs s
    return (a ++ b, s)

/-- ThorsSerializerUtil.h:262-300 `tryGetSizeFromSerializeType` with BsonPrinter.h:113 `getSizeRaw`. Without a size function it throws
`DepricatedIssue`. -/
def customSize (v : V) : Res Nat :=
  match S.size with
  | some f => .ok (4 + 1 + f v)
  | none => throwStd

/-- SerUtil.h:105-119, the sum over the elements. -/
def customSizes : List V → Res Nat
  | [] => .ok 0
  | v :: vs => do
    let a ← customSize S v
    let b ← customSizes vs
    return a + b

/-- `stream << bsonExporter(x)`. Serialize.tpp:988-993: at the root the size is asked for, and not used. BsonThor.h:32-37: the document of the class
is one of a single value. -/
def customBson : CVal V → Res Bytes
  | .one v => do
    let _ ← customSize S v
    let (w, _) ← customPutBson S v BPrint.init
    return bytesOf (w ++ BPrint.closeDoc .Value)
  | .vec vs => do
    let n ← customSizes S vs
    let (a, s) ← BPrint.step (.openArray (BPrint.sizeArray vs.length + n)) BPrint.init
    let (b, s) ← customPutsBson S vs s
    let (c, _) ← BPrint.step .closeArray s
    return bytesOf (a ++ b ++ c)

/-- The elements of a `std::vector`, SerUtil.h:225-232, each with YamlPrinter.h:75 `addRawValue`. -/
def customPutsYaml (accepts : Bytes → Bool) : List V → YPrint.State → Res (List YEv × YPrint.State)
  | [], s => .ok ([], s)
  | v :: vs, s => do
    let (a, s) ← YPrint.emit accepts (S.put v) s
    let (b, s) ← customPutsYaml accepts vs s
    return (a ++ b, s)

/-- `stream << yamlExporter(x)`. -/
def customYaml (accepts : Bytes → Bool) : CVal V → Res (List YEv)
  | .one v => do
    let (es, _) ← YPrint.emit accepts (S.put v) [(0, .Value)]
    return [.streamStart, .docStart] ++ es ++ [.docEnd, .streamEnd]
  | .vec vs => do
    let (a, s) ← YPrint.step accepts (.openArray 0) [(0, .Value)]
    let (b, s) ← customPutsYaml S accepts vs s
    let (c, _) ← YPrint.step accepts .closeArray s
    return [.streamStart, .docStart] ++ (a ++ b ++ c) ++ [.docEnd, .streamEnd]

/-! ### Reading -/

variable {σ : Type}

/-- Serialize.tpp:307-320 `scanObject`: the text of the value goes into a stream of its own, the object is read from it. Nothing looks at the
state of that stream afterwards. -/
def customScan (o : POps σ) (v : V) (p : PI σ) : Res (V × PI σ) := do
  let (t, p) ← p.getToken o
  if t ≠ .Value then throwStd else
  let (b, s) ← o.getRaw p.inner
  return ((S.get b v).1, { p with inner := s })

/-- The loop over the elements of a `std::vector` (see `deserVec`). -/
def customScans (o : POps σ) (vs : List V) (p : PI σ) : Res (List V × PI σ) := do
  let (k, p) ← p.getToken o
  if k = .ArrayEnd then return (vs, p) else
  let (v, p) ← customScan S o S.fresh (p.pushBackToken k)
  customScans o (vs ++ [v]) p
partial_fixpoint

/-- The block of the type: the class, or `std::vector` (Serialize.tpp:196-265). -/
def streamedRead (o : POps σ) : CVal V → PI σ → Res (CVal V × PI σ)
  | .one v, p => do
    let (v, p) ← customScan S o v p
    return (.one v, p)
  | .vec vs, p => do
    let (k, p) ← p.getToken o
    if k ≠ .ArrayStart then throwStd else
    let (vs, p) ← customScans S o vs p
    return (.vec vs, p)

/-- Serialize.h:250-283, the root `DeSerializer` around `parse`, for an object or a vector with the value `x`. -/
def customImport (o : POps σ) (x : CVal V) (p : PI σ) : Res (CVal V × PI σ) := do
  let (k, p) ← p.getToken o
  if k ≠ .DocStart then throwStd else
  let (y, p) ← streamedRead S o x p
  let (k, p) ← p.getToken o
  if k ≠ .DocEnd then throwStd else
  return (y, p)

/-- `jsonImporter` with a text. -/
noncomputable def jsonCustomImport (conv : Bool) (x : CVal V) (t : Bytes) : Res (CVal V) := do
  let (v, _) ← customImport S JsonP.ops x (PI.init (JsonP.ofBytes t conv))
  return v

/-- `jsonImporter` with a stream, and the stream afterwards. -/
noncomputable def jsonStreamCustomImport (conv : Bool) (x : CVal V) (i : IStr) : Res (CVal V × IStr) := do
  let (v, p) ← customImport S JsonS.ops x (PI.init (JsonS.ofStream i conv))
  return (v, p.inner.lex.inp)

/-- BsonThor.h:32-37, 44-49: the document of the class is one of a single value, that of a vector an array. -/
def customRoot : CVal V → BCont
  | .one _ => .Value
  | .vec _ => .Array

/-- `bsonImporter` with bytes. -/
noncomputable def bsonCustomImport (x : CVal V) (t : Bytes) : Res (CVal V) := do
  let (v, _) ← customImport S BsonP.ops x (PI.init (BsonP.ofBytes (customRoot x) t))
  return v

/-- `bsonImporter` with a stream, and the stream afterwards. -/
noncomputable def bsonStreamCustomImport (x : CVal V) (i : IStr) : Res (CVal V × IStr) := do
  let (v, p) ← customImport S BsonS.ops x (PI.init (BsonS.ofStream (customRoot x) i))
  return (v, p.inner.inp)

/-- `yamlImporter` with the events libyaml makes of a text. -/
noncomputable def yamlCustomImport (x : CVal V) (es : List YEv) : Res (CVal V) := do
  let (v, _) ← customImport S YamlP.ops x (PI.init (YamlP.ofEvents es))
  return v

end
end Thors
