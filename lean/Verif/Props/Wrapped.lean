import Verif.Props.Elements
import Verif.Model.JsonStream
/-
C139: optionals and pointers are what they hold.
-/
namespace Thors.Props
open Thors Thors.Spec StrIn

/-- What an optional holds, or a fresh object. -/
def heldOr (fresh : Val) : Val → Val
  | .some w => w
  | _ => fresh

/-- An outcome with its value put into something. -/
def putInto {α β : Type} (f : α → β) : Res α → Res β
  | .ok v => .ok (f v)
  | .throw e => .throw e
  | .ub => .ub

private theorem putInto_bind {α β : Type} (f : α → β) (r : Res α) : (r >>= fun a => pure (f a)) = putInto f r := by
  cases r <;> rfl

private theorem importValue_opt {σ : Type} (o : POps σ) (env : Env) (cfg : Cfg) (t : Ty) (old : Val) (p : PI σ) :
    importValue o env cfg (.opt t) old p = putInto (fun r => (.some r.1, r.2)) (importValue o env cfg t (heldOr (t.default env) old) p) := by
  have hc : old.contentOr (t.default env) = heldOr (t.default env) old := by cases old <;> rfl
  unfold importValue
  cases p.getToken o with
  | throw e => rfl
  | ub => rfl
  | ok r =>
    obtain ⟨k, p⟩ := r
    simp only [Res.ok_bind]
    split
    · rfl
    · rw [deser, hc]
      cases deser o env cfg t (heldOr (t.default env) old) p with
      | throw e => rfl
      | ub => rfl
      | ok r =>
        obtain ⟨v, p⟩ := r
        simp only [Res.ok_bind, Res.pure_eq]
        cases p.getToken o with
        | throw e => rfl
        | ub => rfl
        | ok r =>
          obtain ⟨k, p⟩ := r
          simp only [Res.ok_bind]
          split <;> rfl

/-- C139. Any bytes, read as JSON into an optional, do what they do when they are read into what the optional holds, or into a fresh object if it is empty. -/
theorem C139_optional (env : Env) (cfg : Cfg) (conv : Bool) (t : Ty) (old : Val) (text : Bytes) :
    jsonImport env cfg conv (.opt t) old text = putInto .some (jsonImport env cfg conv t (heldOr (t.default env) old) text) := by
  unfold jsonImport
  rw [importValue_opt]
  cases importValue JsonP.ops env cfg t (heldOr (t.default env) old) (PI.init (JsonP.ofBytes text conv)) <;> rfl

/-- C139 for JSON on a stream, in any state: the stream is left alike. -/
theorem C139_optional_stream (env : Env) (cfg : Cfg) (conv : Bool) (t : Ty) (old : Val) (i : IStr) :
    jsonStreamImport env cfg conv (.opt t) old i = putInto (fun r => (.some r.1, r.2)) (jsonStreamImport env cfg conv t (heldOr (t.default env) old) i) := by
  unfold jsonStreamImport
  rw [importValue_opt]
  cases importValue JsonS.ops env cfg t (heldOr (t.default env) old) (PI.init (JsonS.ofStream i conv)) <;> rfl

/-- C139 for YAML: any events. -/
theorem C139_optional_yaml (env : Env) (cfg : Cfg) (t : Ty) (old : Val) (es : List YEv) :
    yamlImport env cfg (.opt t) old es = putInto .some (yamlImport env cfg t (heldOr (t.default env) old) es) := by
  unfold yamlImport
  rw [importValue_opt]
  cases importValue YamlP.ops env cfg t (heldOr (t.default env) old) (PI.init (YamlP.ofEvents es)) <;> rfl

theorem imp_uptr_put {K X : Type} (sem : ScalarSem K X) (env : Env) (cfg : Cfg) (v : Tr K X) (hv : ∀ x, v = .scalar x → sem.isNull x = false) (t : Ty) (old : Val) :
    imp sem env cfg v (.uptr t) old = putInto .ptr (imp sem env cfg v t (t.default env)) := by
  cases v with
  | scalar x =>
    simp only [imp, impScalar]
    rw [if_neg (by simp [hv x rfl]), putInto_bind]
  | arr ts => simp only [imp, impArr, putInto_bind]
  | obj ms => simp only [imp, impObj, putInto_bind]

/-- C139 for pointers (`std::unique_ptr`, plain pointers): a document other than `null` does what it does when it is read into a fresh object. -/
theorem C139_pointer (env : Env) (cfg : Cfg) (conv : Bool) (t : Ty) (old : Val) (v : JTree) (text : Bytes) (hd : JDoc codePair v text) (hv : v ≠ .scalar .null)
    (hskip : cfg.strict = .Weak → v.skippable (jsem conv) = true) :
    jsonImport env cfg conv (.uptr t) old text = putInto .ptr (jsonImport env cfg conv t (t.default env) text) := by
  rw [jsonImport_doc env cfg hd _ _ (.inl hskip), jsonImport_doc env cfg hd _ _ (.inl hskip)]
  refine imp_uptr_put _ _ _ _ (fun x hx => ?_) _ _
  subst hx
  cases x with
  | null => exact absurd rfl hv
  | _ => rfl

/-- The document `null` gives a null pointer. -/
theorem C139_null (env : Env) (cfg : Cfg) (conv : Bool) (t : Ty) (old : Val) (text : Bytes) (hd : JDoc codePair (.scalar .null) text) :
    jsonImport env cfg conv (.uptr t) old text = .ok .null := by
  rw [jsonImport_doc env cfg hd _ _ (.inr (by simp [imp, impScalar, jsem]))]
  simp [imp, impScalar, jsem]

/-- C139 for YAML: a document other than a null does what it does when it is read into a fresh object. -/
theorem C139_pointer_yaml (env : Env) (cfg : Cfg) (t : Ty) (old : Val) (v : YTree) (rest : List YEv) (hv : v ≠ .scalar b!"null" ∧ v ≠ .scalar b!"~") :
    yamlImport env cfg (.uptr t) old ([.streamStart, .docStart] ++ yevents v ++ .docEnd :: rest) =
      putInto .ptr (yamlImport env cfg t (t.default env) ([.streamStart, .docStart] ++ yevents v ++ .docEnd :: rest)) := by
  rw [yamlImport_doc, yamlImport_doc]
  refine imp_uptr_put _ _ _ _ (fun x hx => ?_) _ _
  subst hx
  simp only [ysem, decide_eq_false_iff_not, not_or]
  exact ⟨fun e => hv.1 (by rw [e]), fun e => hv.2 (by rw [e])⟩

theorem C139_null_yaml (env : Env) (cfg : Cfg) (t : Ty) (old : Val) (rest : List YEv) : ∀ x ∈ [b!"null", b!"~"],
    yamlImport env cfg (.uptr t) old ([.streamStart, .docStart, .scalar x, .docEnd] ++ rest) = .ok .null := by
  intro x hx
  have h := yamlImport_doc env cfg (.scalar x) rest (.uptr t) old
  rw [show [YEv.streamStart, .docStart, .scalar x, .docEnd] ++ rest = [.streamStart, .docStart] ++ yevents (.scalar x) ++ .docEnd :: rest by simp [yevents], h]
  simp only [List.mem_cons, List.not_mem_nil, or_false] at hx
  simp [imp, impScalar, ysem, hx]

/-- C139, writing: an optional that holds something and a pointer to something have the JSON text of that, in every layout. -/
theorem C139_export (env : Env) (cfg : PrintCfg) (t : Ty) (v : Val) :
    jsonExport env cfg (.opt t) (.some v) = jsonExport env cfg t v ∧ jsonExport env cfg (.uptr t) (.ptr v) = jsonExport env cfg t v := by
  constructor <;> rw [jsonExport, jsonExport, ser]

/-- C139, writing YAML. -/
theorem C139_export_yaml (accepts : Bytes → Bool) (env : Env) (mk : Bytes) (t : Ty) (v : Val) :
    yamlExport accepts env mk (.opt t) (.some v) = yamlExport accepts env mk t v ∧ yamlExport accepts env mk (.uptr t) (.ptr v) = yamlExport accepts env mk t v := by
  constructor <;> rw [yamlExport, yamlExport, ser]

/-- So the document `null` is refused by an optional number: it does not empty the optional. -/
theorem C139_optional_null (env : Env) (cfg : Cfg) (conv : Bool) (k : IntKind) (old : Val) (text : Bytes) (hd : JDoc codePair (.scalar .null) text) :
    jsonImport env cfg conv (.opt (.int k)) old text = .throw .std := by
  rw [C139_optional, jsonImport_doc env cfg hd _ _ (.inr (by simp [imp, impScalar, jsem, throwStd]))]
  simp [imp, impScalar, jsem, throwStd, putInto]

/-- non-vacuity: `[1]` into an optional vector that holds a 4, into a pointer; `null` into a pointer; exports. -/
example : jsonImport Samples.env ⟨.Strict, []⟩ true (.opt (.vec Samples.int32)) (.some (.list [.int 4])) (Samples.text (.arr [Samples.num 1])) = .ok (.some (.list [.int 4, .int 1])) := by
  rw [C139_optional, jsonImport_doc _ _ (Samples.plain_doc _ (by decide)) _ _ (.inl fun h => by cases h)]
  rfl
example : jsonImport Samples.env ⟨.Strict, []⟩ true (.uptr (.vec Samples.int32)) (.ptr (.list [.int 4])) (Samples.text (.arr [Samples.num 1])) = .ok (.ptr (.list [.int 1])) := by
  rw [C139_pointer Samples.env ⟨.Strict, []⟩ true _ _ _ _ (Samples.plain_doc _ (by decide)) (by simp) (fun h => by cases h), jsonImport_doc _ _ (Samples.plain_doc _ (by decide)) _ _ (.inl fun h => by cases h)]
  rfl
example : jsonImport Samples.env ⟨.Strict, []⟩ true (.uptr Samples.int32) (.ptr (.int 4)) b!"null" = .ok .null :=
  C139_null Samples.env ⟨.Strict, []⟩ true _ _ b!"null" (Samples.plain_doc (.scalar .null) (by decide))
example (env : Env) : yamlImport env ⟨.Strict, []⟩ (.uptr .bool) .null ([.streamStart, .docStart] ++ yevents (.scalar b!"true") ++ .docEnd :: [.streamEnd]) = .ok (.ptr (.bool true)) := by
  rw [C139_pointer_yaml env ⟨.Strict, []⟩ .bool .null (.scalar b!"true") [.streamEnd] (by simp), yamlImport_doc]
  rfl

end Thors.Props
