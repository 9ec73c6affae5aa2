import Verif.Proofs.FitsOps
import Verif.Props.Typed
/-
C95: a complete document that has room in the type does nothing undefined.
-/
namespace Thors.Props
open Thors Thors.Spec StrIn

/-- C95. BSON from a string. Any document, in front of anything, of a program whose types are in order, in any mode. If the document has room
in the type, the import comes to an end with a value of the type or an exception. -/
theorem C95_bson (env : Env) (D : DefaultsTyped env) (C : ClassesKnown env) (cfg : Cfg) (t : BTree) (h : Storable32 t) (rest : Bytes) (ty : Ty)
    (hb : bsonBase env ty = BsonP.rootKind t) (old : Val) (ho : HasType env ty old) (hf : Fits bsem env (fun _ _ => True) t ty) :
    (∃ v, bsonImport env cfg ty old (bdoc t ++ rest) = .ok v ∧ HasType env ty v) ∨ ∃ e, bsonImport env cfg ty old (bdoc t ++ rest) = .throw e := by
  rw [bsonImport_doc env cfg t h rest ty hb old]
  exact safe_cases (imp_safe D C t (allScalars_imp (bson_good _) t h.scalars) (fun _ => bskippable t) ty hf old ho)

/-- C95. BSON from a stream. -/
theorem C95_bson_stream (env : Env) (D : DefaultsTyped env) (C : ClassesKnown env) (cfg : Cfg) (t : BTree) (h : Storable32 t) (rest : Bytes) (ty : Ty)
    (hb : bsonBase env ty = BsonP.rootKind t) (old : Val) (ho : HasType env ty old) (hf : Fits bsem env (fun _ _ => True) t ty) (i : IStr) (hi : Stands (bdoc t ++ rest) i) :
    (∃ v i', bsonStreamImport env cfg ty old i = .ok (v, i') ∧ HasType env ty v ∧ Stands rest i') ∨ ∃ e, bsonStreamImport env cfg ty old i = .throw e := by
  have hs := imp_safe D C t (allScalars_imp (bson_good _) t h.scalars) (cfg := cfg) (fun _ => bskippable t) ty hf old ho
  rcases bson_stream_doc env cfg t h rest ty hb old hi with ⟨v, i', h1, h2, h3⟩ | ⟨e, -, h2⟩ | ⟨h1, -⟩
  · rw [h1] at hs; exact .inl ⟨v, i', h2, hs, h3⟩
  · exact .inr ⟨e, h2⟩
  · rw [h1] at hs; exact hs.elim

/-- C95. YAML: any document, in front of anything. -/
theorem C95_yaml (env : Env) (D : DefaultsTyped env) (C : ClassesKnown env) (cfg : Cfg) (t : YTree) (es : List YEv) (ty : Ty) (old : Val) (ho : HasType env ty old)
    (hf : Fits ysem env (fun _ _ => True) t ty) :
    (∃ v, yamlImport env cfg ty old ([.streamStart, .docStart] ++ yevents t ++ .docEnd :: es) = .ok v ∧ HasType env ty v) ∨
    ∃ e, yamlImport env cfg ty old ([.streamStart, .docStart] ++ yevents t ++ .docEnd :: es) = .throw e := by
  rw [yamlImport_doc env cfg t es ty old]
  exact safe_cases (imp_safe D C t (allScalars_all (yaml_good _) t) (fun _ => yskip t) ty hf old ho)

/-- C95. JSON from a string: here numbers have to be in the range of the type as well (C09, C62). In Weak mode the strings of the document have to be
ones that can be skipped (C16). -/
theorem C95_json (env : Env) (D : DefaultsTyped env) (C : ClassesKnown env) (cfg : Cfg) (conv : Bool) (v : JTree) (t : Bytes) (hd : JDoc codePair v t) (ty : Ty) (old : Val)
    (ho : HasType env ty old) (hf : Fits (jsem conv) env NumberFits v ty) (hw : cfg.strict = .Weak → v.skippable (jsem conv) = true) :
    (∃ x, jsonImport env cfg conv ty old t = .ok x ∧ HasType env ty x) ∨ ∃ e, jsonImport env cfg conv ty old t = .throw e := by
  rw [jsonImport_doc env cfg hd ty old (.inl hw)]
  exact safe_cases (imp_safe D C v (allScalars_all (json_good conv) v) hw ty hf old ho)

/-- C95. JSON from a stream that stands in front of white space and the value: a number that is out of range is cut off (C60). -/
theorem C95_json_stream (env : Env) (D : DefaultsTyped env) (C : ClassesKnown env) (cfg : Cfg) (conv : Bool) (v : JTree) (w tv post : Bytes) (hws : Ws w)
    (hv : JText codePair v tv) (hp : Ends v post) (i : IStr) (hi : OkS (w ++ tv ++ post) i) (ty : Ty) (old : Val) (ho : HasType env ty old)
    (hf : Fits (jssem conv) env (fun _ _ => True) v ty) (hw : cfg.strict = .Weak → v.skippable (jssem conv) = true) :
    (∃ x i', jsonStreamImport env cfg conv ty old i = .ok (x, i') ∧ HasType env ty x ∧ OkS post i') ∨ ∃ e, jsonStreamImport env cfg conv ty old i = .throw e := by
  have hs := imp_safe D C v (allScalars_all (stream_good conv _) v) hw ty hf old ho
  rcases safe_cases hs with ⟨x, h1, h2⟩ | ⟨e, h1⟩
  · obtain ⟨i', h3, h4⟩ := jsonStreamImport_doc env cfg hws hv hp hi ty old x h1
    exact .inl ⟨x, i', h3, h2, h4⟩
  · exact .inr ⟨e, jsonStreamImport_throw env cfg hws hv hp hi ty old e h1⟩

theorem env94_known : ClassesKnown env94 where
  registry n c h := by
    simp [env94] at h
    rcases h with ⟨-, rfl⟩ | ⟨-, rfl⟩ | ⟨-, rfl⟩ <;> exact ⟨_, rfl⟩
  alts i cs h := by
    match i with
    | 0 => cases h
    | 1 => cases h
    | 2 => cases h
    | n + 3 => cases h

/-- The document of the examples: a vector of vehicles, one of them a bike with two gears, the second of them not a number. -/
def doc95 (gear : BScalar) : BTree := .arr [.obj [(b!"__type", .scalar (.str b!"Bike")), (b!"gears", .arr [.scalar (.int32 7), .scalar gear]), (b!"more", .scalar (.bool true))], .scalar .null]

theorem fits95 (gear : BScalar) : Fits bsem env94 (fun _ _ => True) (doc95 gear) (.vec (.pptr 0)) := by
  simp only [doc95, Ty.vec, Fits, bare, Fits.elems, Fits.members, Option.some.injEq, forall_eq', namedClass, bsem, true_and, and_true]
  intro c hc
  cases hc
  refine ⟨rfl, fun d hd => ?_⟩
  cases hd
  refine ⟨fun ty h => ?_, fun ty h => ?_, fun ty h => trivial⟩
  · trivial
  · cases h
    simp [bare, Samples.int32]

/-- non-vacuity: the bike is imported or the document refused, whatever the second gear is, whatever comes behind. -/
example (gear : BScalar) (hg : gear.valid) (hl : gear.payload.length < 1000) (cfg : Cfg) (rest : Bytes) :
    (∃ v, bsonImport env94 cfg (.vec (.pptr 0)) (.list []) (bdoc (doc95 gear) ++ rest) = .ok v ∧ HasType env94 (.vec (.pptr 0)) v) ∨
    ∃ e, bsonImport env94 cfg (.vec (.pptr 0)) (.list []) (bdoc (doc95 gear) ++ rest) = .throw e :=
  C95_bson env94 env94_typed env94_known cfg (doc95 gear)
    ⟨by simp [doc95, AllKeys, AllKeys.elems, AllKeys.members],
      by
        have h1 : (BScalar.int32 7).valid := ⟨by decide, by decide⟩
        simp only [doc95, AllScalars, AllScalars.elems, AllScalars.members, and_true]
        exact ⟨⟨trivial, ⟨h1, hg⟩, trivial⟩, trivial⟩,
      by
        have h1 : (BScalar.str b!"Bike").payload.length = 9 := by decide
        have h2 : (BScalar.int32 7).payload.length = 4 := by decide
        have h3 : (BScalar.bool true).payload.length = 1 := by decide
        have h4 : BScalar.null.payload.length = 0 := by decide
        have h5 : (decimal 0).length = 1 := by decide
        have h6 : (decimal 1).length = 1 := by decide
        simp only [doc95, bdoc, bpayload, bpayload.elems, bpayload.members, framed, btype, List.length_append, List.length_cons, List.length_nil, le_length, h1, h2, h3, h4, h5, h6]
        omega⟩ rest _ rfl _
    (by simp [Ty.vec, HasType, HaveType, InSeqOrder]) (fits95 gear)

/-- non-vacuity, JSON: an object of the class, the number in range, read in Strict mode. -/
example (old : Val) (ho : HasType env94 (.named 2) old) :
    (∃ x, jsonImport env94 ⟨.Strict, []⟩ true (.named 2) old b!"{\"speed\":7,\"gears\":[1,2]}" = .ok x ∧ HasType env94 (.named 2) x) ∨
    ∃ e, jsonImport env94 ⟨.Strict, []⟩ true (.named 2) old b!"{\"speed\":7,\"gears\":[1,2]}" = .throw e := by
  have hd : JDoc codePair (.obj [(Samples.jstr b!"speed", Samples.num 7), (Samples.jstr b!"gears", .arr [Samples.num 1, Samples.num 2])]) b!"{\"speed\":7,\"gears\":[1,2]}" :=
    Samples.plain_doc _ (by decide)
  refine C95_json env94 env94_typed env94_known _ _ _ _ hd _ old ho ?_ (by simp)
  simp only [Fits, bare, Fits.members]
  refine ⟨fun ty h => ?_, fun ty h => ?_, trivial⟩
  · cases h
    intro t i h
    cases h
    exact ⟨by decide, by decide⟩
  · cases h
    refine ⟨by decide, fun ty h => ?_, fun ty h => ?_, trivial⟩ <;>
    · cases h
      intro t i h
      cases h
      exact ⟨by decide, by decide⟩

end Thors.Props
