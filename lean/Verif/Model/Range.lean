import Verif.Model.StringOutput
import Verif.Model.Yaml
import Verif.Model.BsonIds
/-
Model of the exporters of ranges: `ExporterRange` in `/repo/src/Serialize/Exporter.h` (JSON, YAML), and the output of ranges to a `std::string`. (BSON to a
stream: `bsonExportRange`.)

Not modelled: `jsonExporter(range)` and the others take the range by value and keep a reference to their parameter (JsonThor.h:47-52, YamlThor.h:46-51,
BsonThor.h:100-106 with Exporter.h:109, 133). Whether the parameter is still there when the exporter is used in the same full expression is up to the
implementation; here it is.
-/
namespace Thors

/-- Exporter.h:121-123: the elements one after the other. -/
def rangeItems (env : Env) (marker : Bytes) (t : Ty) : List Val → Res (List Cmd)
  | [] => .ok []
  | v :: vs => do
    let a ← ser env marker noSize t v
    let b ← rangeItems env marker t vs
    return a ++ b

/-- Exporter.h:116-126 `ExporterRange::doInserter`, the calls of the printer. -/
def rangeCmds (env : Env) (marker : Bytes) (t : Ty) (vs : List Val) : Res (List Cmd) := do
  let items ← rangeItems env marker t vs
  return .openArray 0 :: (items ++ [.closeArray])

/-- `stream << jsonExporter(range)`. -/
def jsonExportRange (env : Env) (cfg : PrintCfg) (t : Ty) (vs : List Val) : Res Bytes := do
  let cmds ← rangeCmds env cfg.marker t vs
  let (ws, _) ← JPrint.run cfg cmds JPrint.init
  return bytesOf ws

/-- `stream << yamlExporter(range)`. The document is opened and closed by `Serializer` (Serialize.h:287-303). -/
def yamlExportRange (accepts : Bytes → Bool) (env : Env) (marker : Bytes) (t : Ty) (vs : List Val) : Res (List YEv) := do
  let cmds ← rangeCmds env marker t vs
  let (es, _) ← YPrint.run accepts cmds [(0, .Value)]
  return [.streamStart, .docStart] ++ es ++ [.docEnd, .streamEnd]

/-- `string << jsonExporter(range)`, up to and with the call of `openArray` (Exporter.h:118-120): neither `preflightSize` nor `reserveSize` has been called. -/
def jsonRangeToStringStart (cfg : PrintCfg) (old : Bytes) : Res StrOut := do
  let (ws, _) ← JPrint.step cfg (.openArray 0) JPrint.init
  (StrOut.ofString old (!cfg.exact)).putAll ws

/-- `string << bsonExporter(range)`, up to and with the call of `openArray` (Exporter.h:141-153). -/
def bsonRangeToStringStart (env : Env) (info : BPrint.SizeInfo) (marker : Bytes) (t : Ty) (vs : List Val) (old : Bytes) : Res StrOut := do
  let size ← BIds.psizeList env marker info false false [.Array] t vs
  let (ws, _) ← BPrint.step (.openArray (BPrint.sizeArray vs.length + size)) BPrint.init
  (StrOut.ofString old true).putAll ws

end Thors
