import Verif.Proofs.Modes
import Verif.Proofs.BsonStream
import Verif.Proofs.YamlPresents
import Verif.Model.JsonStream
import Verif.Props.Import
/-
C99: a laxer mode accepts more, and reads the same.
-/
namespace Thors.Props
open Thors Thors.Spec StrIn

/-- C99, JSON from a string: if an object is read in one mode, then the call does just the same in a laxer one. The modes differ only in what they
refuse: `Exact` refuses what `Strict` refuses, and `Strict` what `Weak` refuses. -/
theorem C99_json (env : Env) (m m' : ParseType) (hl : Laxer m m') (mk : Bytes) (pol : Policy) (conv : Bool) (ty : Ty) (old : Val) (t : Bytes) (r : Bool) (v : Val)
    (h : (jsonExtract env ⟨m, mk⟩ pol conv ty old t).fate = .returned r (some v)) :
    jsonExtract env ⟨m', mk⟩ pol conv ty old t = jsonExtract env ⟨m, mk⟩ pol conv ty old t :=
  extract_laxer JsonP.inOps (cfg := ⟨m, mk⟩) (cfg' := ⟨m', mk⟩) rfl hl pol ty old _ r v h

/-- C99, JSON from a stream. -/
theorem C99_json_stream (env : Env) (m m' : ParseType) (hl : Laxer m m') (mk : Bytes) (pol : Policy) (conv : Bool) (ty : Ty) (old : Val) (i : IStr) (r : Bool) (v : Val)
    (h : (jsonStreamExtract env ⟨m, mk⟩ pol conv ty old i).fate = .returned r (some v)) :
    jsonStreamExtract env ⟨m', mk⟩ pol conv ty old i = jsonStreamExtract env ⟨m, mk⟩ pol conv ty old i :=
  extract_laxer JsonS.inOps (cfg := ⟨m, mk⟩) (cfg' := ⟨m', mk⟩) rfl hl pol ty old _ r v h

/-- C99, BSON from a string. -/
theorem C99_bson (env : Env) (m m' : ParseType) (hl : Laxer m m') (mk : Bytes) (ty : Ty) (old : Val) (t : Bytes) (v : Val)
    (h : bsonImport env ⟨m, mk⟩ ty old t = .ok v) : bsonImport env ⟨m', mk⟩ ty old t = .ok v :=
  (import_laxer (cfg := ⟨m, mk⟩) (cfg' := ⟨m', mk⟩) rfl hl ty old _).bind (fun _ => .refl _) v h

/-- C99, BSON from a stream: also the stream is left in the same place. -/
theorem C99_bson_stream (env : Env) (m m' : ParseType) (hl : Laxer m m') (mk : Bytes) (ty : Ty) (old : Val) (i : IStr) (x : Val × IStr)
    (h : bsonStreamImport env ⟨m, mk⟩ ty old i = .ok x) : bsonStreamImport env ⟨m', mk⟩ ty old i = .ok x :=
  (import_laxer (cfg := ⟨m, mk⟩) (cfg' := ⟨m', mk⟩) rfl hl ty old _).bind (fun _ => .refl _) x h

/-- C99, YAML. -/
theorem C99_yaml (env : Env) (m m' : ParseType) (hl : Laxer m m') (mk : Bytes) (ty : Ty) (old : Val) (es : List YEv) (v : Val)
    (h : yamlImport env ⟨m, mk⟩ ty old es = .ok v) : yamlImport env ⟨m', mk⟩ ty old es = .ok v :=
  (import_laxer (cfg := ⟨m, mk⟩) (cfg' := ⟨m', mk⟩) rfl hl ty old _).bind (fun _ => .refl _) v h

/-- C99 is not vacuous: `{"b":2}` is read into a `Base` in Exact mode, hence in every mode. -/
example (m : ParseType) (pol : Policy) : (jsonExtract Samples.env ⟨m, []⟩ pol true (.named 0) (Samples.env.dflt 0) b!"{\"b\":2}").fate = .returned true (some (.obj [] [.int 2])) := by
  have h := C38_blank_tail_accepted Samples.env ⟨.Exact, []⟩ pol true (.obj [(Samples.jstr b!"b", Samples.num 2)]) [] b!"{\"b\":2}" [] (by simp [Ws])
    (Samples.plain_text _ (by decide)) trivial (.named 0) (Samples.env.dflt 0) (.obj [] [.int 2]) rfl (by decide)
  rw [C99_json Samples.env .Exact m trivial [] pol true (.named 0) (Samples.env.dflt 0) b!"{\"b\":2}" true (.obj [] [.int 2]) (congrArg Report.fate h)]
  exact congrArg Report.fate h

/-- The modes do differ: `{"b":2,"z":3}` is read in Weak mode only, and `{}` not in Exact mode. -/
example : jsonImport Samples.env ⟨.Weak, []⟩ true (.named 0) (Samples.env.dflt 0) b!"{\"b\":2,\"z\":3}" = .ok (.obj [] [.int 2]) ∧
    jsonImport Samples.env ⟨.Strict, []⟩ true (.named 0) (Samples.env.dflt 0) b!"{\"b\":2,\"z\":3}" = .throw .std ∧
    jsonImport Samples.env ⟨.Strict, []⟩ true (.named 0) (Samples.env.dflt 0) b!"{}" = .ok (.obj [] [.int 0]) ∧
    jsonImport Samples.env ⟨.Exact, []⟩ true (.named 0) (Samples.env.dflt 0) b!"{}" = .throw .std := by
  have h1 : JDoc codePair (.obj [(Samples.jstr b!"b", Samples.num 2), (Samples.jstr b!"z", Samples.num 3)]) b!"{\"b\":2,\"z\":3}" := Samples.plain_doc _ (by decide)
  have h2 : JDoc codePair (.obj []) b!"{}" := Samples.plain_doc _ (by decide)
  exact ⟨(jsonImport_doc Samples.env ⟨.Weak, []⟩ h1 (.named 0) _ (.inl fun _ => by decide)).trans rfl, (jsonImport_doc Samples.env ⟨.Strict, []⟩ h1 (.named 0) _ (.inl fun h => by cases h)).trans rfl,
    (jsonImport_doc Samples.env ⟨.Strict, []⟩ h2 (.named 0) _ (.inl fun h => by cases h)).trans rfl, (jsonImport_doc Samples.env ⟨.Exact, []⟩ h2 (.named 0) _ (.inl fun h => by cases h)).trans rfl⟩

end Thors.Props
