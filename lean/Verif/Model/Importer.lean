import Verif.Model.Deser
import Verif.Model.JsonOps
/-
Model of `/repo/src/Serialize/Importer.h` (`Importer::extract`), `/repo/src/Serialize/Exporter.h`
(`ExporterBase::inserter`) and the root `DeSerializer` of `/repo/src/Serialize/Serialize.h`.
-/
namespace Thors
open StrIn

/-- ParserConfig.h:64-71 and PrinterConfig.h, the fields `extract` and `inserter` read. `ParserConfig{}` has
`catchExceptions = true`, `catchUnknownExceptions = false`, `validateNoTrailingData = false`. -/
structure Policy where
  catchExceptions : Bool
  catchUnknownExceptions : Bool
  validateNoTrailingData : Bool
  deriving DecidableEq, Repr

/-- How a call of `extract` / `inserter` ends for the caller. `terminated`: `std::terminate`, an exception
thrown while another one is being propagated. -/
inductive Fate (α : Type)
  | returned (result : Bool) (value : Option α)
  | raised (e : Exc)
  | terminated
  | ub
  deriving DecidableEq, Repr

/-- The end of a call, and whether the stream is then in a good state (`none`: as the exception left it). The
value is `none` where the target was left half filled. -/
structure Report (α : Type) where
  fate : Fate α
  stream : Option Bool
  deriving DecidableEq, Repr

/-- ParserInterface.h:261-325, the functions of `ParserInterface` on the input that `extract` calls. -/
structure InOps (σ : Type) where
  ops : POps σ
  ok : σ → Bool
  clear : σ → σ
  readChar : σ → Byte × σ

/-- Importer.h:66-97, the handlers: `DepricatedIssue` is rethrown, any other exception sets the fail state
and is rethrown or swallowed. `parser.ok()` is false after `setFail()`. -/
def Policy.handle {α : Type} (pol : Policy) (e : Exc) : Report α :=
  match e with
  | .deprecated => ⟨.raised .deprecated, none⟩
  | .std => if pol.catchExceptions = false then ⟨.raised .std, some false⟩ else ⟨.returned false none, some false⟩
  | .unknown => if pol.catchUnknownExceptions = false then ⟨.raised .unknown, some false⟩ else ⟨.returned false none, some false⟩

variable {σ : Type}

/-- Importer.h:42-63, the check for trailing data: the new state and whether it throws. -/
def trailing (io : InOps σ) (pol : Policy) (p : PI σ) : Bool × PI σ :=
  if pol.validateNoTrailingData ∧ io.ok p.inner = true then
    let s := (io.readChar p.inner).2
    if io.ok s = false then (false, { p with inner := io.clear s }) else (true, { p with inner := s })
  else (false, p)

/-- Importer.h:35-98 `extract`. The destructor of the `DeSerializer` (Serialize.h:271-283) runs at the end of the
`try` block, after the check for trailing data; after an exception of the constructor or of `parse`, which
clears `root` (Serialize.tpp:890,897), it does nothing. -/
noncomputable def extract (io : InOps σ) (env : Env) (cfg : Cfg) (pol : Policy) (ty : Ty) (old : Val) (p : PI σ) : Report Val :=
  match (do
    -- Serialize.h:250-269, the constructor
    let (k, p) ← p.getToken io.ops
    if k ≠ Tok.DocStart then throwStd else
    deser io.ops env cfg ty old p : Res (Val × PI σ)) with
  | .ub => ⟨.ub, none⟩
  | .throw e => pol.handle e
  | .ok (v, p) =>
    let (junk, p) := trailing io pol p
    match p.getToken io.ops with
    | .ub => ⟨.ub, none⟩
    | .throw e => if junk then ⟨.terminated, none⟩ else pol.handle e
    | .ok (k, p) =>
      if k ≠ Tok.DocEnd then (if junk then ⟨.terminated, none⟩ else pol.handle .std)
      else if junk then pol.handle .std
      else ⟨.returned (io.ok p.inner) (some v), some (io.ok p.inner)⟩

/-- Exporter.h:38-79 `inserter`, around what `doInserter` does to the printer. -/
def inserter {α : Type} (ok : α → Bool) (pol : Policy) (run : Res α) : Report α :=
  match run with
  | .ub => ⟨.ub, none⟩
  | .throw e => pol.handle e
  | .ok a => ⟨.returned (ok a) (some a), some (ok a)⟩

/-- The input functions of a JSON parser reading from a string. -/
def JsonP.inOps : InOps JsonP where
  ops := JsonP.ops
  ok s := s.lex.inp.isOk
  clear s := { s with lex := { s.lex with inp := s.lex.inp.clear } }
  readChar s := ((s.lex.inp.readChar).1, { s with lex := { s.lex with inp := (s.lex.inp.readChar).2 } })

/-- `std::string >> jsonImporter(value, config)` (Importer.h:104-108). -/
noncomputable def jsonExtract (env : Env) (cfg : Cfg) (pol : Policy) (conv : Bool) (ty : Ty) (old : Val) (t : Bytes) : Report Val :=
  extract JsonP.inOps env cfg pol ty old (PI.init (JsonP.ofBytes t conv))

end Thors
