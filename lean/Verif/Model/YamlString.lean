import Verif.Model.Yaml
import Verif.Model.StringOutput
/-
Model of YAML export to a `std::string`: `/repo/src/Serialize/YamlPrinter.cpp` over
`/repo/src/Serialize/StringOutput.h`, driven by `Serializer::print` (Serialize.tpp:1304-1324).
libyaml is a parameter: `chunks` are the pieces it hands to the callback for a document (the same in both passes: the
emitter is new in each, and is told the same events), `tail` the pieces it hands over when the stream is ended.
-/
namespace Thors

/-- YamlPrinter.cpp:13-38: calls of the callback, each with a piece, when the printer writes to a string. The calls of
`write` of one piece are one here. `firstDone` is `YamlPrinter::firstLine` (YamlPrinter.h:26, 43), which nothing sets
back. -/
def yamlPutChunks (blockSize : Nat) : Bool → List Bytes → StrOut → Res (Bool × StrOut)
  | firstDone, [], s => .ok (firstDone, s)
  | firstDone, c :: cs, s => do
    let (w, firstDone) := yamlWriteChunk blockSize firstDone c
    let s ← s.put (.chars w)
    yamlPutChunks blockSize firstDone cs s

/-- Serialize.h:287-303, Serialize.tpp:1304-1324 and YamlPrinter.cpp:72-110, 119-124. The first pass counts, up to and
with the end of the document; `reserveSize`; `reset`, which ends the stream of the first pass (now writing for real);
the second pass; `finalizePrint`; and `~YamlPrinter`, which ends the stream of the second pass. -/
def yamlPrintString (blockSize : Nat) (estimate : Bool) (chunks tail : List Bytes) (old : Bytes) : Res Bytes := do
  let s := (StrOut.ofString old estimate).preflightSize
  let (f, s) ← yamlPutChunks blockSize false chunks s
  let s := s.reserveSize
  let (f, s) ← yamlPutChunks blockSize f tail s
  let (f, s) ← yamlPutChunks blockSize f chunks s
  let s ← s.finalizePrint
  let (_, s) ← yamlPutChunks blockSize f tail s
  return s.data

/-- Exporter.h:85-110, the target being a `std::string`: `libyaml` gives the pieces for the events of the document.
An export that fails is taken to leave the function with the exception (Model/Unwind has what really happens). A negative block
size (the callback would throw `std::length_error` through libyaml) is not modelled: it is taken as 0 and the theorems
exclude it. -/
def yamlExportString (libyaml : List YEv → List Bytes) (accepts : Bytes → Bool) (env : Env) (cfg : PrintCfg) (ty : Ty) (v : Val) (old : Bytes) : Res Bytes := do
  let es ← yamlExport accepts env cfg.marker ty v
  yamlPrintString cfg.blockSize.toNat (!cfg.exact) (libyaml es) [] old

/-- The same, the target being a `std::ostream`: what is appended to it. -/
def yamlExportStream (libyaml : List YEv → List Bytes) (accepts : Bytes → Bool) (env : Env) (cfg : PrintCfg) (ty : Ty) (v : Val) : Res Bytes := do
  let es ← yamlExport accepts env cfg.marker ty v
  return yamlWriteChunks cfg.blockSize.toNat false (libyaml es)

end Thors
