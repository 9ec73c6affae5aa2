import Verif.Model.Custom
import Verif.Model.AnyBlock
/-
The static buffer of `BsonParser::getRawValue` (`/repo/src/Serialize/BsonParser.cpp:426-455`) as what it is: one `std::string` for the whole program. It is what
classes with stream operators and `AnyBlock` are read from.
-/
namespace Thors
open StrIn

/-- `std::string::resize`: cut, or filled up with NUL. -/
def resized (buf : Bytes) (n : Nat) : Bytes := buf.take n ++ List.replicate (n - buf.length) 0x00

/-- BsonParser.cpp:390-410 `readBinary(dst)`, with what is in `dst` before: `StringInput::read` is content with less than it was asked for
(StringInput.h:35-44), and then the end of `dst` stays. -/
def BsonP.readBinaryInto (buf : Bytes) (s : BsonP) : Res (Bytes × BsonP) := do
  let (n, inp) ← readLE 4 s.inp
  let s ← { s with inp := inp }.use 4
  let (_, good, inp) ← s.inp.read 1
  if good = false then throwStd else
  let s ← { s with inp := inp }.use 1
  if n < 0 then throwStd else
  let (got, good, inp) ← s.inp.read n.toNat
  if good = false then throwStd else
  let s ← { s with inp := inp }.use n
  return (got ++ (resized buf n.toNat).drop got.length, s)

/-- BsonParser.cpp:426-455 `getRawValue`, with the buffer before and after. -/
def BsonP.getRawInto (s : BsonP) (buf : Bytes) : Res (Bytes × BsonP × Bytes) :=
  if s.type = 0x05 then do
    let (b, s) ← s.readBinaryInto buf
    return (b, s, b)
  else do
    let (b, s') ← s.getRaw
    return (b, s', if s.type = 0x08 ∨ s.type = 0x0A then buf else b)

/-- A parser with something beside it that only `getRawValue` uses. -/
def POps.beside {σ τ : Type} (o : POps σ) (raw : σ → τ → Res (Bytes × σ × τ)) : POps (σ × τ) where
  next s := do let (a, s') ← o.next s.1; return (a, s', s.2)
  getKey s := do let (a, s') ← o.getKey s.1; return (a, s', s.2)
  getInt k s := do let (a, s') ← o.getInt k s.1; return (a, s', s.2)
  getFlt f s := do let (a, s') ← o.getFlt f s.1; return (a, s', s.2)
  getBool s := do let (a, s') ← o.getBool s.1; return (a, s', s.2)
  getStr s := do let (a, s') ← o.getStr s.1; return (a, s', s.2)
  isNull s := o.isNull s.1
  ignoreData s := do let s' ← o.ignoreData s.1; return (s', s.2)
  getRaw s := do let (a, s', t) ← raw s.1 s.2; return (a, s', t)

/-- The BSON parser on a string, and the buffer of the program. -/
def BsonP.opsShared : POps (BsonP × Bytes) := BsonP.ops.beside BsonP.getRawInto

/-- `bsonImporter` with bytes into an object of a class with stream operators, or a vector of them, in a program whose buffer has the contents `buf`: the value and the buffer afterwards. -/
noncomputable def bsonCustomImportIn {V : Type} (S : Streamed V) (buf : Bytes) (x : CVal V) (t : Bytes) : Res (CVal V × Bytes) := do
  let (v, p) ← customImport S BsonP.opsShared x (PI.init (BsonP.ofBytes (customRoot x) t, buf))
  return (v, p.inner.2)

/-- The object `v` after such an import, also if that throws: `operator>>` reads into the object before the end of the document is looked at (Serialize.h:267-281, Serialize.tpp:318-319). -/
def bsonCustomLeft {V : Type} (S : Streamed V) (buf : Bytes) (v : V) (t : Bytes) : V :=
  match (do
    let (k, p) ← (PI.init (BsonP.ofBytes .Value t, buf)).getToken BsonP.opsShared
    if k ≠ Tok.DocStart then throwStd else customScan S BsonP.opsShared v p) with
  | .ok (v', _) => v'
  | _ => v

/-- Imports one after the other, each into an object of its own: what they end with, and the buffer. An import that throws has changed the
buffer in some way: `left` says how. -/
noncomputable def bsonCustomImports {V : Type} (S : Streamed V) (left : Bytes → Bytes → Bytes) : List (CVal V × Bytes) → Bytes → List (Res (CVal V)) × Bytes
  | [], buf => ([], buf)
  | (x, t) :: rest, buf =>
    let r := bsonCustomImportIn S buf x t
    let (rs, buf') := bsonCustomImports S left rest (match r with | .ok (_, b) => b | _ => left buf t)
    ((do let (v, _) ← r; return v) :: rs, buf')

/-! ### Threads -/

/-- What an import does that concerns the buffer: fill it, and copy it into a stream of its own, from which the object is read (Serialize.tpp:318-319).
Taking each of these for one step is a simplification in favour of the code. -/
inductive RawAct
  | fill (b : Bytes)
  | copy
  deriving DecidableEq, Repr

/-- A class that keeps the text it is read from. -/
def textKeeper : Streamed Bytes := ⟨[], id, fun b _ => (b, true), none⟩

/-- The steps of importing a vector: what an object is read from has no influence on what is read next. -/
noncomputable def importActs (t : Bytes) : Res (List RawAct) := do
  match ← bsonCustomImport textKeeper (.vec []) t with
  | .vec bs => return bs.flatMap fun b => [.fill b, .copy]
  | .one _ => return []

/-- A thread: the steps it still has to do, and the texts its objects were read from. -/
structure RawThread where
  todo : List RawAct
  texts : List Bytes

/-- One step. -/
def RawAct.perform (a : RawAct) (buf : Bytes) (texts : List Bytes) : Bytes × List Bytes :=
  match a with
  | .fill b => (b, texts)
  | .copy => (buf, texts ++ [buf])

/-- Some threads, and the buffer. -/
structure RawProgram where
  buf : Bytes
  threads : List RawThread

/-- Thread `i` does its next step, if it has one. -/
def RawProgram.step (p : RawProgram) (i : Nat) : RawProgram :=
  match p.threads[i]? with
  | some ⟨a :: todo, texts⟩ =>
    let (buf, texts) := a.perform p.buf texts
    ⟨buf, p.threads.set i ⟨todo, texts⟩⟩
  | _ => p

/-- A schedule. -/
def RawProgram.run (p : RawProgram) (schedule : List Nat) : RawProgram := schedule.foldl RawProgram.step p

end Thors
