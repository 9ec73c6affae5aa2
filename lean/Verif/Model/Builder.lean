import Verif.Model.Importer
/-
Model of `jsonBuilder` (`/repo/src/Serialize/JsonThor.h:75-84`), `bsonBuilder` (`/repo/src/Serialize/BsonThor.h:117-126`)
and `yamlBuilder` (`/repo/src/Serialize/YamlThor.h:63-72`), which are the same function.
-/
namespace Thors
open StrIn

/-- Where a builder reads from: `stream >> importer` is a `bool` for strings (Importer.h:104-111) and the
stream itself, tested with `!fail()`, for `std::istream` (Importer.h:99-103). -/
inductive Source
  | string | stream
  deriving DecidableEq, Repr

/-- How a call of a builder ends. -/
inductive Built
  | value (v : Val)
  | raised (e : Exc)
  | terminated
  | ub

/-- JsonThor.h:79-83, what is done with the outcome of the import: the value if the test of `stream >> importer`
succeeds, otherwise `T{}` (`fresh`). -/
def Report.build (r : Report Val) (src : Source) (fresh : Val) : Built :=
  match r.fate with
  | .ub => .ub
  | .terminated => .terminated
  | .raised e => .raised e
  | .returned result v =>
    let good := match src with
      | .string => result
      | .stream => r.stream = some true
    if good then
      match v with
      | some v => .value v
      | none => .ub
    else .value fresh

/-- JsonThor.h:75-84, BsonThor.h:117-126, YamlThor.h:63-72. `T value;` is default initialised: numbers in it are
indeterminate. `raw` is what it happens to hold, `fresh` is `T{}`. -/
noncomputable def builder {σ : Type} (io : InOps σ) (env : Env) (cfg : Cfg) (pol : Policy) (ty : Ty) (src : Source) (raw fresh : Val) (p : PI σ) : Built :=
  (extract io env cfg pol ty raw p).build src fresh

/-- `jsonBuilder<T>(text, config)` on a `std::string`. -/
noncomputable def jsonBuilder (env : Env) (cfg : Cfg) (pol : Policy) (conv : Bool) (ty : Ty) (raw fresh : Val) (t : Bytes) : Built :=
  builder JsonP.inOps env cfg pol ty .string raw fresh (PI.init (JsonP.ofBytes t conv))

end Thors
