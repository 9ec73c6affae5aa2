import Verif.Model.Importer
/-
Specification: the JSON reader with some value in the place of the indeterminate one that it hands out for a number that
is out of range (C09).
-/
namespace Thors.Spec
open Thors StrIn

/-- What a program sees in a variable that was never written: anything, and it may be something else each time. -/
structure Indet where
  int : IntKind → JsonP → Int
  flt : FKind → JsonP → Flt

/-- JsonManualLexer.h:48-61 `scan<T>`, the value of `T value;` being `j` if it was not written. -/
def getIntJ (j : Indet) (k : IntKind) (p : JsonP) : Res (Int × JsonP) := do
  let ((ok, v), s) ← readIntValue p.lex.inp k
  if ¬ ok then throwStd else return (v.getD (j.int k p), { p with lex := { p.lex with inp := s } })

/-- The same for floating point types. -/
def getFltJ (j : Indet) (f : FKind) (p : JsonP) : Res (Flt × JsonP) := do
  let ((ok, v), s) ← readFltValue p.lex.inp f
  if ¬ ok then throwStd else return (v.getD (j.flt f p), { p with lex := { p.lex with inp := s } })

/-- The JSON parser with these two functions. -/
def opsJ (j : Indet) : POps JsonP := { JsonP.ops with getInt := getIntJ j, getFlt := getFltJ j }

/-- `std::string >> jsonImporter(value, config)` with that parser. -/
noncomputable def jsonExtractJ (j : Indet) (env : Env) (cfg : Cfg) (pol : Policy) (conv : Bool) (ty : Ty) (old : Val) (t : Bytes) : Report Val :=
  extract { JsonP.inOps with ops := opsJ j } env cfg pol ty old (PI.init (JsonP.ofBytes t conv))

end Thors.Spec
