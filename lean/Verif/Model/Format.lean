import Verif.Model.JsonPrinter
import Verif.Model.BsonPrinter
import Verif.Model.Yaml
/-
Model of `/repo/src/Serialize/Format.h`: `std::formatter<TA::Ser<T>>`.
-/
namespace Thors

/-- Format.h:33 `enum Format`. -/
inductive FForm
  | Json | Bson | Yaml
  deriving DecidableEq, Repr

/-- Format.h:33-37, the members of the formatter and their initial values. `indentSize` and `blockIndent` are `std::size_t`. -/
structure FSpec where
  form : FForm := .Json
  type : Layout := .Stream
  indentSize : Nat := 0
  blockIndent : Nat := 0
  deriving DecidableEq, Repr

namespace Format

/-- Format.h:39-42 `isDigit`. -/
def isDigit (c : Byte) : Bool := 0x30 ≤ c && c ≤ 0x39

/-- Format.h:85-87 and 92-94, the loops over the digits: `n * 10 + (c - '0')` in `std::size_t` (64 bits). The text is what is left of the
format string, and `*loop` at its end is an access outside it. -/
def digits : Nat → Bytes → Res (Nat × Bytes)
  | _, [] => .ub
  | n, c :: cs => if isDigit c then digits ((n * 10 + (c.toNat - 0x30)) % 2 ^ 64) cs else .ok (n, c :: cs)

/-- Format.h:66-74, the first `switch`. -/
def parseForm : Bytes → Res (FForm × Bytes)
  | [] => .ub
  | c :: cs =>
    if c = 0x4A then .ok (.Json, cs)
    else if c = 0x42 then .ok (.Bson, cs)
    else if c = 0x59 then .ok (.Yaml, cs)
    else .ok (.Json, c :: cs)

/-- Format.h:77-83, the second `switch`. -/
def parseType : Bytes → Res (Layout × Bytes)
  | [] => .ub
  | c :: cs =>
    if c = 0x2D then .ok (.Stream, cs)
    else if c = 0x2A then .ok (.Config, cs)
    else .ok (.Stream, c :: cs)

/-- Format.h:43-97 `parse`, on what follows the `:` (or the argument number) in the format string. -/
def parse (t : Bytes) : Res (FSpec × Bytes) := do
  let (form, t) ← parseForm t
  let (type, t) ← parseType t
  let (indent, t) ← digits 0 t
  match t with
  | [] => .ub
  | c :: cs =>
    if c = 0x2E then
      let (block, t) ← digits 0 cs
      return (⟨form, type, indent, block⟩, t)
    else return (⟨form, type, indent, 0⟩, c :: cs)

/-- The conversion of a `std::size_t` to the `int` of PrinterConfig.h:24 (modulo 2^32; the compiler may also refuse it, it narrows inside
braces). -/
def toInt (n : Nat) : Int := if n % 2 ^ 32 < 2 ^ 31 then (n % 2 ^ 32 : Nat) else (n % 2 ^ 32 : Nat) - (2 ^ 32 : Int)

/-- What `std::format` gives for the replacement field. `cut`: the call returns, with what the exporter had written before an exception
(Exporter.h:55-64 with `catchExceptions = true`, PrinterConfig.h:61; the stream is in a failed state, which nobody looks at). For YAML the
text is libyaml's; the model has the events given to it. -/
inductive Output
  | text (t : Bytes)
  | events (es : List YEv) (tabSize blockSize : Int) (type : Layout)
  | cut
  deriving DecidableEq

/-- Exporter.h:38-79 with `catchExceptions = true`, `catchUnknownExceptions = false`. -/
def swallow {α : Type} (f : α → Output) : Res α → Res Output
  | .ok a => .ok (f a)
  | .throw .std => .ok .cut
  | .throw e => .throw e
  | .ub => .ub

/-- Format.h:99-115 `format`. BsonThor.h:93-99: `bsonExporter` itself refuses a null pointer, before anything is written. -/
def format (accepts : Bytes → Bool) (env : Env) (info : BPrint.SizeInfo) (s : FSpec) (ty : Ty) (v : Val) : Res Output :=
  let cfg : PrintCfg := { layout := s.type, tabSize := toInt s.indentSize, blockSize := toInt s.blockIndent }
  match s.form with
  | .Json => swallow .text (jsonExport env cfg ty v)
  | .Bson => if bsonRefuses ty v then throwStd else swallow .text (bsonExport env info cfg.marker ty v)
  | .Yaml => swallow (fun es => .events es cfg.tabSize cfg.blockSize cfg.layout) (yamlExport accepts env cfg.marker ty v)

/-- A replacement field of `std::format`: `parse`, then the check of the standard library that it stopped at the closing brace, otherwise a
`std::format_error`; then `format`. Result: the text put in place of the field and the rest of the format string. -/
def field (accepts : Bytes → Bool) (env : Env) (info : BPrint.SizeInfo) (t : Bytes) (ty : Ty) (v : Val) : Res (Output × Bytes) := do
  let (s, rest) ← parse t
  match rest with
  | 0x7D :: rest => return (← format accepts env info s ty v, rest)
  | _ => throwStd

end Format
end Thors
