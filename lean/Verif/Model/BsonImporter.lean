import Verif.Model.BsonStream
import Verif.Model.Importer
import Verif.Model.BsonPrinter
/-
Model of `/repo/src/Serialize/Importer.h` (`Importer::extract`) for `bsonImporter` (`/repo/src/Serialize/BsonThor.h:111-116`), on strings and streams.
-/
namespace Thors
open StrIn

/-- ParserInterface.h:261-325, the input functions of a BSON parser reading from a string. -/
def BsonP.inOps : InOps BsonP where
  ops := BsonP.ops
  ok s := s.inp.isOk
  clear s := { s with inp := s.inp.clear }
  readChar s := ((s.inp.readChar).1, { s with inp := (s.inp.readChar).2 })

/-- The same for a stream: `ok()` is `!fail()`. -/
def BsonS.inOps : InOps BsonS where
  ops := BsonS.ops
  ok s := !s.inp.fail
  clear s := { s with inp := s.inp.clear }
  readChar s := ((s.inp.readChar).1.getD 0xFF, { s with inp := (s.inp.readChar).2 })

/-- `std::string >> bsonImporter(value, config)` (Importer.h:104-108). -/
noncomputable def bsonExtract (env : Env) (cfg : Cfg) (pol : Policy) (ty : Ty) (old : Val) (t : Bytes) : Report Val :=
  extract BsonP.inOps env cfg pol ty old (PI.init (BsonP.ofBytes (bsonBase env ty) t))

/-- `stream >> bsonImporter(value, config)` (Importer.h:99-103). -/
noncomputable def bsonStreamExtract (env : Env) (cfg : Cfg) (pol : Policy) (ty : Ty) (old : Val) (i : IStr) : Report Val :=
  extract BsonS.inOps env cfg pol ty old (PI.init (BsonS.ofStream (bsonBase env ty) i))

end Thors
