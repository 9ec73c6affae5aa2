import Verif.Proofs.ExportDefined
import Verif.Props.Bson
/-
C118: exporting any value is defined behaviour.
-/
namespace Thors.Props
open Thors Thors.Spec StrIn

/-- C118, JSON: the export of any value ends with a text or an exception, where the indentation fits into its buffer (always in the layout `Stream`, C25). -/
theorem C118_json_partial (env : Env) (cfg : PrintCfg) (ty : Ty) (v : Val) (h : OfType env ty v) (hf : ∀ d, docOf env cfg.marker ty v = .ok d → FitsIndent cfg (nesting d)) :
    (∃ text, jsonExport env cfg ty v = .ok text) ∨ ∃ e, jsonExport env cfg ty v = .throw e := by
  have hs := ser_safe env cfg.marker noSize _ (fun _ _ _ _ => by simp [noSize]) v ty h
  cases hd : docOf env cfg.marker ty v with
  | ok d =>
    obtain ⟨w, tv, ws, ss, -, -, -, -, e⟩ := export_doc env cfg ty v d hd (hf d hd)
    exact .inl ⟨_, e⟩
  | throw e => exact .inr ⟨e, export_fails env cfg ty v e hd⟩
  | ub =>
    rw [ser_doc, hd] at hs
    exact hs.elim

/-- C118, YAML: whatever texts libyaml accepts. -/
theorem C118_yaml (accepts : Bytes → Bool) (env : Env) (mk : Bytes) (ty : Ty) (v : Val) (h : OfType env ty v) :
    (∃ es, yamlExport accepts env mk ty v = .ok es) ∨ ∃ e, yamlExport accepts env mk ty v = .throw e := by
  have hs : Safe (fun _ => True) (yamlExport accepts env mk ty v) :=
    (ser_safe env mk noSize _ (fun _ _ _ _ => by simp [noSize]) v ty h).bind fun c hc => (ycalls_safe accepts hc 0 .Value []).bind fun _ _ => trivial
  cases e : yamlExport accepts env mk ty v with
  | ok es => exact .inl ⟨es, rfl⟩
  | throw x => exact .inr ⟨x, rfl⟩
  | ub => rw [e] at hs; exact hs.elim

/-- C118, BSON, to a stream or a string: if all enumerators have names. -/
theorem C118_bson_partial (env : Env) (info : BPrint.SizeInfo) (mk : Bytes) (ty : Ty) (v : Val) (h : NamedOfType env ty v) (old : Bytes) :
    bsonExportString env info mk ty v old = bsonExport env info mk ty v ∧
    ((∃ bytes, bsonExport env info mk ty v = .ok bytes) ∨ ∃ e, bsonExport env info mk ty v = .throw e) := by
  refine ⟨C24_bson_export_to_string env info mk ty v old, ?_⟩
  have hs : Safe (fun _ => True) (bsonExport env info mk ty v) := by
    unfold bsonExport
    split
    · trivial
    refine Safe.bind (P := fun _ => True) ?_ fun _ _ => trivial
    exact (ser_safe env mk _ _ (fun t w p hw => (BPrint.psize_safe env mk info w p t hw).ne_ub) v ty h).bind fun c hc =>
      (BPrint.calls_safe hc BPrint.init rfl).bind fun _ _ => trivial
  cases e : bsonExport env info mk ty v with
  | ok es => exact .inl ⟨es, rfl⟩
  | throw x => exact .inr ⟨x, rfl⟩
  | ub => rw [e] at hs; exact hs.elim

/-- C118. The values of C94, so those any import delivers, are among these values. -/
theorem C118_typed (env : Env) (hd : ∀ c b, env.derives c b = true → ∃ k, env.defs c = .cls k) (ha : ∀ i alts, env.defs i = .variant alts → ∀ c ∈ alts, ∃ k, env.defs c = .cls k)
    (ty : Ty) (v : Val) (h : HasType env ty v) : NamedOfType env ty v := typed_shape hd ha v ty h

/-- An enumeration with one named value. -/
def switchEnv : Env := ⟨fun _ => .enum [(1, b!"On")], fun _ => .enum 1, [], fun _ _ => false, fun _ _ _ => false⟩

/-- A value in a vector, alone it is refused, too. -/
def switches : Val := .list [.enum 1, .enum 7]

/-- C118 is false of BSON: a vector with an enumerator that has no name is undefined behaviour. JSON and YAML throw. -/
theorem C118_false (info : BPrint.SizeInfo) (mk : Bytes) (accepts : Bytes → Bool) (cfg : PrintCfg) :
    OfType switchEnv (.seq .back (.named 0)) switches ∧ bsonExport switchEnv info mk (.seq .back (.named 0)) switches = .ub ∧
      jsonExport switchEnv cfg (.seq .back (.named 0)) switches = .throw .std ∧ yamlExport accepts switchEnv mk (.seq .back (.named 0)) switches = .throw .std := by
  refine ⟨⟨trivial, trivial, trivial⟩, rfl, rfl, rfl⟩

/-- The hypotheses are met by a vector of enumerators. -/
example (info : BPrint.SizeInfo) (mk : Bytes) : (∃ bytes, bsonExport switchEnv info mk (.seq .back (.named 0)) (.list [.enum 1, .enum 1]) = .ok bytes) ∨
    ∃ e, bsonExport switchEnv info mk (.seq .back (.named 0)) (.list [.enum 1, .enum 1]) = .throw e :=
  (C118_bson_partial switchEnv info mk _ _ (by simp [NamedOfType, ValShape, ValShapes, switchEnv]) []).2

example (accepts : Bytes → Bool) (mk : Bytes) : (∃ es, yamlExport accepts switchEnv mk (.seq .back (.named 0)) switches = .ok es) ∨
    ∃ e, yamlExport accepts switchEnv mk (.seq .back (.named 0)) switches = .throw e :=
  C118_yaml accepts switchEnv mk _ _ ⟨trivial, trivial, trivial⟩

example (cfg : PrintCfg) : (∃ text, jsonExport switchEnv cfg (.seq .back (.named 0)) switches = .ok text) ∨
    ∃ e, jsonExport switchEnv cfg (.seq .back (.named 0)) switches = .throw e :=
  C118_json_partial switchEnv cfg _ _ ⟨trivial, trivial, trivial⟩ (fun _ h => nomatch h)

example : NamedOfType switchEnv (.opt (.named 0)) (.some (.enum 1)) :=
  C118_typed switchEnv (fun _ _ h => nomatch h) (fun _ _ h => nomatch h) _ _ (by simp [HasType, switchEnv])

end Thors.Props
