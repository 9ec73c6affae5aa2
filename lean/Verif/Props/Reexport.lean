import Verif.Proofs.Reexport
import Verif.Props.Typed
import Verif.Props.Bson
import Verif.Props.Yaml
import Verif.Props.BsonStream
/-
C104: whatever was imported can be exported, and the export brings it back.
-/
namespace Thors.Props
open Thors Thors.Spec StrIn

/-- `v` is what an import into an object of the type has left there: from JSON text, a JSON stream, BSON bytes, a BSON stream or YAML. -/
def Imported (env : Env) (ty : Ty) (v : Val) : Prop :=
  ∃ cfg old, HasType env ty old ∧
    ((∃ pol conv t r, (jsonExtract env cfg pol conv ty old t).fate = .returned r (some v)) ∨
     (∃ pol conv i r, (jsonStreamExtract env cfg pol conv ty old i).fate = .returned r (some v)) ∨
     (∃ t, bsonImport env cfg ty old t = .ok v) ∨ (∃ i i', bsonStreamImport env cfg ty old i = .ok (v, i')) ∨
     ∃ es, yamlImport env cfg ty old es = .ok v)

theorem imported_typed {env : Env} (D : DefaultsTyped env) {ty : Ty} {v : Val} (h : Imported env ty v) : HasType env ty v := by
  obtain ⟨cfg, old, ho, ⟨pol, conv, t, r, h⟩ | ⟨pol, conv, i, r, h⟩ | ⟨t, h⟩ | ⟨i, i', h⟩ | ⟨es, h⟩⟩ := h
  · exact C94_json_partial env D cfg pol conv ty old ho t r v h
  · exact C94_json_stream_partial env D cfg pol conv ty old ho i r v h
  · exact C94_bson_partial env D cfg ty old ho t v h
  · exact C94_bson_stream_partial env D cfg ty old ho i i' v h
  · exact C94_yaml_partial env D cfg ty old ho es v h

/-- C104. It has a document `d`; the export to JSON succeeds (wherever the indentation fits, so always in the layout `Stream`). Importing the
text into a fresh object gives the same value again, if the keys need no escaping and the floating point values have six digits. Types with
optional elements and pointers to pointers are excluded (`Solid`), see `C104_false`. -/
theorem C104_json_partial (env : Env) (pcfg : PrintCfg) (hS : SolidTypes env pcfg.marker) (hg : GoodTypes env) (D : DefaultsTyped env) (ty : Ty)
    (hty : Solid env pcfg.marker false ty) (v : Val) (hv : Imported env ty v) :
    ∃ d, Spec.docOf env pcfg.marker ty v = .ok d ∧ (FitsIndent pcfg (nesting d) → ∃ text, jsonExport env pcfg ty v = .ok text ∧
      (AllKeys cleanKey d → AllScalars sixAtom d → ∀ cfg old, cfg.marker = pcfg.marker → (cfg.strict = .Exact → ExactTypes env) → Fresh env ty old →
        jsonImport env cfg true ty old text = .ok v)) := by
  obtain ⟨hs, d, hd⟩ := back_val env pcfg.marker hg hS v ty false hty (by simp) (imported_typed D hv)
  refine ⟨d, hd, fun hf => ?_⟩
  obtain ⟨w, tv, ws, ss, -, -, -, -, e⟩ := export_doc env pcfg ty v d hd hf
  refine ⟨_, e, fun hk ha cfg old hm hx ho => ?_⟩
  obtain ⟨text, p, h1, h2, -⟩ := C23_round_trip_partial env pcfg cfg ty v old d [] hg hS.filters hm hx hd hs ho hk ha hf
    ⟨fun _ _ _ => trivial, fun _ _ _ => trivial⟩
  rw [e] at h1
  cases h1
  rw [List.append_nil] at h2
  simp [jsonImport, h2]

/-- C104, BSON. What the export of BSON asks in addition is that of C27. -/
theorem C104_bson_partial (env : Env) (info : BPrint.SizeInfo) (mk : Bytes) (hS : SolidTypes env mk) (hg : GoodTypes env) (D : DefaultsTyped env) (ty : Ty)
    (hty : Solid env mk false ty) (v : Val) (hv : Imported env ty v) (hz : SizeKnown env info false ty v) (ht : TopLevel env ty v) :
    ∃ d, Spec.docOf env mk ty v = .ok d ∧ (AllScalars plainAtom d → ∃ bytes, bsonExport env info mk ty v = .ok bytes ∧
      (AllKeys (fun k => (0x00 : Byte) ∉ k) d → AllScalars doubleAtom d → bytes.length < 2 ^ 31 →
        ∀ cfg old, cfg.marker = mk → (cfg.strict = .Exact → ExactTypes env) → Fresh env ty old → bsonImport env cfg ty old bytes = .ok v)) := by
  obtain ⟨hs, d, hd⟩ := back_val env mk hg hS v ty false hty (by simp) (imported_typed D hv)
  refine ⟨d, hd, fun ha => ⟨_, bsonExport_doc env info mk ty v d hd hz ha ht, fun hk hf hl cfg old hm hx ho => ?_⟩⟩
  obtain ⟨bytes, p, h1, h2, -⟩ := C27_round_trip_partial env info mk cfg ty v old d [] hg hS.filters hm hx hd hs ho hz ht hk ha hf hl
  rw [bsonExport_doc env info mk ty v d hd hz ha ht] at h1
  cases h1
  rw [List.append_nil] at h2
  simp [bsonImport, h2]

/-- C104, YAML: what the emitter accepts is exported, and comes back where YAML can represent it (C55). -/
theorem C104_yaml_partial (accepts : Bytes → Bool) (env : Env) (mk : Bytes) (hS : SolidTypes env mk) (hg : GoodTypes env) (D : DefaultsTyped env) (ty : Ty)
    (hty : Solid env mk false ty) (v : Val) (hv : Imported env ty v) :
    ∃ d, Spec.docOf env mk ty v = .ok d ∧ (AllKeys (fun k => accepts k = true) d → AllScalars (fun a => accepts (yatom a) = true) d → AllScalars yamlScalar d →
      ∃ es, yamlExport accepts env mk ty v = .ok es ∧ ∀ cfg old, cfg.marker = mk → (cfg.strict = .Exact → ExactTypes env) → Fresh env ty old →
        yamlImport env cfg ty old es = .ok v) := by
  obtain ⟨hs, d, hd⟩ := back_val env mk hg hS v ty false hty (by simp) (imported_typed D hv)
  refine ⟨d, hd, fun hk ha hy => ?_⟩
  have key := fun cfg old hm hx ho => C55_yaml_round_trip_partial accepts env mk cfg ty v old d hg hS.filters hm hx hd hs ho hk ha hy
  refine ⟨ydoc (ytree d), ?_, fun cfg old hm hx ho => ?_⟩
  · obtain ⟨es, h1, h2, -⟩ := key ⟨.Weak, mk⟩ (ty.default env) rfl (by simp) (default_fresh env hg ty)
    rw [h1, h2]
  · obtain ⟨es, -, h2, h3⟩ := key cfg old hm hx ho
    rw [← h2]; exact h3

/-- The classes of the example: `struct Base { int id; }` (0, polymorphic), `struct Node : Base { std::optional<std::string> note; std::vector<int> xs;
std::unique_ptr<bool> p; Colour c; Base* next; std::tuple<int, bool> t; std::variant<Base, Node> s; }` (1), `enum Colour { Red, Green }` (2), the tuple (3) and the
variant (4). -/
def env104 : Env where
  defs
    | 0 => .cls ⟨.mk [] [⟨b!"id", b!"id", Samples.int32⟩] none, b!"Base", none⟩
    | 1 => .cls ⟨.mk [.mk [] [⟨b!"id", b!"id", Samples.int32⟩] none]
        [⟨b!"note", b!"note", .opt .str⟩, ⟨b!"xs", b!"xs", .vec Samples.int32⟩, ⟨b!"p", b!"p", .uptr .bool⟩, ⟨b!"c", b!"colour", .named 2⟩,
         ⟨b!"next", b!"next", .pptr 0⟩, ⟨b!"t", b!"t", .named 3⟩, ⟨b!"s", b!"s", .named 4⟩] none, b!"Node", none⟩
    | 3 => .tuple [Samples.int32, .bool]
    | 4 => .variant [0, 1]
    | _ => .enum [(0, b!"Red"), (5, b!"Green")]
  dflt
    | 0 => .obj [] [.int 0]
    | 1 => .obj [.obj [] [.int 0]] [.none, .list [], .null, .enum 0, .null, .list [.int 0, .bool false], .alt 0 (.obj [] [.int 0])]
    | 3 => .list [.int 0, .bool false]
    | 4 => .alt 0 (.obj [] [.int 0])
    | _ => .enum 0
  registry := [(b!"Base", 0), (b!"Node", 1)]
  derives c b := decide (b ≤ c) && decide (c ≤ 1)

theorem env104_typed : DefaultsTyped env104 := by
  intro i
  match i with
  | 0 => simp [env104, HasType, OwnHave, ParentsHave, Samples.int32, InRange]
  | 1 => simp [env104, HasType, OwnHave, ParentsHave, HaveType, TupleHas, InSeqOrder, Ty.vec, Samples.int32, InRange]
  | 2 => simp [env104, HasType]
  | 3 => simp [env104, HasType, TupleHas, Samples.int32, InRange]
  | 4 => simp [env104, HasType, OwnHave, ParentsHave, Samples.int32, InRange]
  | n + 5 => simp [env104, HasType]

theorem env104_good : GoodTypes env104 where
  names i c h := by
    match i with
    | 0 | 1 => simp only [env104, TypeDef.cls.injEq] at h; subst h; decide
    | 2 | 3 | 4 => simp [env104] at h
    | n + 5 => simp [env104] at h
  enums i t h := by
    match i with
    | 0 | 1 | 3 | 4 => simp [env104] at h
    | 2 => simp only [env104, TypeDef.enum.injEq] at h; subst h; decide
    | n + 5 => simp only [env104, TypeDef.enum.injEq] at h; subst h; decide
  fresh i := by
    match i with
    | 0 | 1 | 2 | 3 | 4 => simp [env104, Fresh, FreshOwn, FreshParents, FreshTuple, Samples.int32]
    | n + 5 => simp [env104, Fresh]

theorem env104_solid : SolidTypes env104 [] where
  members i c h := by
    match i with
    | 0 =>
      simp only [env104, TypeDef.cls.injEq] at h
      subst h
      simp [allMembers, allMembers.inherited, Solid, Samples.int32]
    | 1 =>
      simp only [env104, TypeDef.cls.injEq] at h
      subst h
      have h1 : Solid env104 [] true (.pptr 0) := by
        intro c hc
        match c with
        | 0 => exact ⟨_, rfl, rfl, rfl⟩
        | 1 => exact ⟨_, rfl, rfl, rfl⟩
        | n + 2 => simp [env104] at hc
      have h2 : Solid env104 [] true (.named 4) := by
        show ∀ c ∈ [0, 1], _
        intro c hc
        simp only [List.mem_cons, List.not_mem_nil, or_false] at hc
        rcases hc with rfl | rfl
        · refine ⟨_, rfl, rfl, fun a e ha he hn => ?_⟩
          simp only [List.mem_cons, List.not_mem_nil, or_false] at ha
          rcases ha with rfl | rfl
          · rfl
          · cases he; exact absurd hn (by decide)
        · refine ⟨_, rfl, rfl, fun a e ha he hn => ?_⟩
          simp only [List.mem_cons, List.not_mem_nil, or_false] at ha
          rcases ha with rfl | rfl
          · cases he; exact absurd hn (by decide)
          · rfl
      have h3 : Solid env104 [] true (.named 2) := trivial
      have h4 : Solid env104 [] true (.named 3) := trivial
      simp [allMembers, allMembers.inherited, h1, h2, h3, h4]
      simp [Solid, Samples.int32, nullable, Ty.vec, WeakOrder]
    | 2 | 3 | 4 => simp [env104] at h
    | n + 5 => simp [env104] at h
  tuples i ts h := by
    match i with
    | 3 => simp only [env104, TypeDef.tuple.injEq] at h; subst h; simp [Solid, Samples.int32]
    | 0 | 1 | 2 | 4 => simp [env104] at h
    | n + 5 => simp [env104] at h
  filters i c h := by
    match i with
    | 0 | 1 => simp only [env104, TypeDef.cls.injEq] at h; subst h; simp [NoFilter, NoFilter.all]
    | 2 | 3 | 4 => simp [env104] at h
    | n + 5 => simp [env104] at h

/-- What the document of the example leaves in a node. -/
def node104 : Val := .obj [.obj [] [.int 4]] [.some (.str b!"n"), .list [.int 1, .int 2], .ptr (.bool true), .enum 5,
  .dyn 1 (.obj [.obj [] [.int 0]] [.none, .list [.int 3], .null, .enum 0, .null, .list [.int 0, .bool false], .alt 0 (.obj [] [.int 0])]), .list [.int 7, .bool false], .alt 0 (.obj [] [.int 9])]

def json104 : JTree := .obj [(Samples.jstr b!"id", Samples.num 4), (Samples.jstr b!"note", .scalar (.str (Samples.jstr b!"n"))), (Samples.jstr b!"xs", .arr [Samples.num 1, Samples.num 2]),
  (Samples.jstr b!"p", .scalar (.bool true)), (Samples.jstr b!"colour", .scalar (.str (Samples.jstr b!"Green"))),
  (Samples.jstr b!"next", .obj [(Samples.jstr b!"__type", .scalar (.str (Samples.jstr b!"Node"))), (Samples.jstr b!"xs", .arr [Samples.num 3])]),
  (Samples.jstr b!"t", .arr [Samples.num 7]), (Samples.jstr b!"s", .obj [(Samples.jstr b!"__type", .scalar (.str (Samples.jstr b!"Base"))), (Samples.jstr b!"id", Samples.num 9)])]

theorem node104_imported : Imported env104 (.named 1) node104 := by
  have h := C38_unchecked_tail_ignored env104 ⟨.Weak, []⟩ ⟨true, false, false⟩ true json104 [] _ [] Samples.ws_nil (Samples.plain_text json104 (by decide)) trivial (.named 1) (env104.dflt 1)
    node104 rfl rfl
  rw [List.nil_append, List.append_nil] at h
  exact ⟨_, _, env104_typed 1, .inl ⟨_, _, _, _, congrArg Report.fate h⟩⟩

def doc104 : Doc := .obj [(b!"note", .scalar (.str b!"n")), (b!"xs", .arr [.scalar (.int ⟨32, true⟩ 1), .scalar (.int ⟨32, true⟩ 2)]), (b!"p", .scalar (.bool true)),
  (b!"colour", .scalar (.str b!"Green")),
  (b!"next", .obj [(b!"__type", .scalar (.str b!"Node")), (b!"xs", .arr [.scalar (.int ⟨32, true⟩ 3)]), (b!"p", .scalar .null), (b!"colour", .scalar (.str b!"Red")),
    (b!"next", .scalar .null), (b!"t", .arr [.scalar (.int ⟨32, true⟩ 0), .scalar (.bool false)]),
    (b!"s", .obj [(b!"__type", .scalar (.str b!"Base")), (b!"id", .scalar (.int ⟨32, true⟩ 0))]), (b!"id", .scalar (.int ⟨32, true⟩ 0))]),
  (b!"t", .arr [.scalar (.int ⟨32, true⟩ 7), .scalar (.bool false)]), (b!"s", .obj [(b!"__type", .scalar (.str b!"Base")), (b!"id", .scalar (.int ⟨32, true⟩ 9))]),
  (b!"id", .scalar (.int ⟨32, true⟩ 4))]

theorem node104_doc : Spec.docOf env104 [] (.named 1) node104 = .ok doc104 := by
  simp [Spec.docOf, docOwn, docParents, docList, docTuple, node104, env104, Ty.vec, Samples.int32, shown, doc104, polyMarker, List.lookup]

/-- non-vacuity: the node is exported in the layout `Stream`, and comes back. -/
example : ∃ text, jsonExport env104 { layout := .Stream } (.named 1) node104 = .ok text ∧ jsonImport env104 ⟨.Strict, []⟩ true (.named 1) (env104.dflt 1) text = .ok node104 := by
  obtain ⟨d, hd, h⟩ := C104_json_partial env104 { layout := .Stream } env104_solid env104_good env104_typed (.named 1) rfl node104 node104_imported
  obtain ⟨text, h1, h2⟩ := h (.inl rfl)
  rw [node104_doc] at hd
  cases hd
  exact ⟨text, h1, h2 (by simp [doc104, AllKeys, AllKeys.members, AllKeys.elems]; decide) (by simp [doc104, AllScalars, AllScalars.members, AllScalars.elems, sixAtom]) ⟨.Strict, []⟩ _ rfl (by simp) (env104_good.fresh 1)⟩

/-- non-vacuity: the node is exported to YAML, and comes back. -/
example : ∃ es, yamlExport (fun _ => true) env104 [] (.named 1) node104 = .ok es ∧ yamlImport env104 ⟨.Strict, []⟩ (.named 1) (env104.dflt 1) es = .ok node104 := by
  obtain ⟨d, hd, h⟩ := C104_yaml_partial (fun _ => true) env104 [] env104_solid env104_good env104_typed (.named 1) rfl node104 node104_imported
  rw [node104_doc] at hd
  cases hd
  obtain ⟨es, h1, h2⟩ := h (by simp [doc104, AllKeys, AllKeys.members, AllKeys.elems]) (by simp [doc104, AllScalars, AllScalars.members, AllScalars.elems])
    (by simp [doc104, AllScalars, AllScalars.members, AllScalars.elems, yamlScalar])
  exact ⟨es, h1, h2 ⟨.Strict, []⟩ _ rfl (by simp) (env104_good.fresh 1)⟩

/-- non-vacuity: `[[7]]` is read from JSON into a `std::vector<std::tuple<int, bool>>` and goes to BSON and back. -/
example : ∃ bytes, bsonExport env104 bInfo [] (.vec (.named 3)) (.list [.list [.int 7, .bool false]]) = .ok bytes ∧
    bsonImport env104 ⟨.Strict, []⟩ (.vec (.named 3)) (.list []) bytes = .ok (.list [.list [.int 7, .bool false]]) := by
  have hi := C38_unchecked_tail_ignored env104 ⟨.Weak, []⟩ ⟨true, false, false⟩ true (.arr [.arr [Samples.num 7]]) [] _ [] Samples.ws_nil (Samples.plain_text _ (by decide)) trivial
    (.vec (.named 3)) (.list []) (.list [.list [.int 7, .bool false]]) rfl rfl
  rw [List.nil_append, List.append_nil] at hi
  obtain ⟨d, hd, h⟩ := C104_bson_partial env104 bInfo [] env104_solid env104_good env104_typed (.vec (.named 3)) ⟨trivial, trivial⟩ (.list [.list [.int 7, .bool false]])
    ⟨_, _, by simp [Ty.vec, HasType, HaveType, InSeqOrder], .inl ⟨_, _, _, _, congrArg Report.fate hi⟩⟩
    (by simp [Ty.vec, SizeKnown, SizeKnownList, SizeKnownTuple, env104]) (by simp [Ty.vec, TopLevel])
  have e : Spec.docOf env104 [] (.vec (.named 3)) (.list [.list [.int 7, .bool false]]) = .ok (.arr [.arr [.scalar (.int ⟨32, true⟩ 7), .scalar (.bool false)]]) := rfl
  rw [e] at hd
  cases hd
  have hb := bsonExport_doc env104 bInfo [] (.vec (.named 3)) _ _ e (by simp [Ty.vec, SizeKnown, SizeKnownList, SizeKnownTuple, env104])
    (by simp [AllScalars, AllScalars.elems, plainAtom]) (by simp [Ty.vec, TopLevel])
  obtain ⟨bytes, h1, h2⟩ := h (by simp [AllScalars, AllScalars.elems, plainAtom])
  have := h1.symm.trans hb
  cases this
  exact ⟨_, h1, h2 (by simp [AllKeys, AllKeys.elems]) (by simp [AllScalars, AllScalars.elems, doubleAtom]) (by decide +kernel) _ _ rfl (by simp) (by simp [Ty.vec, Fresh])⟩

/-- C104 is false for optional elements: a short list is imported into a `std::array<std::optional<bool>, 2>`, which can not be exported
then. -/
theorem C104_false (env : Env) (cfg : Cfg) (pcfg : PrintCfg) :
    ∃ old v, HasType env (.arr 2 (.opt .bool)) old ∧ jsonImport env cfg true (.arr 2 (.opt .bool)) old b!"[true]" = .ok v ∧
      jsonExport env pcfg (.arr 2 (.opt .bool)) v = .throw .std := by
  refine ⟨.list [.none, .none], .list [.some (.bool true), .none], by simp [HasType, HaveType], ?_, ?_⟩
  · exact (Samples.import_plain (.arr [.scalar (.bool true)]) (by decide) rfl env cfg true _ _ rfl).trans (by simp [imp, imp.elems, impArr, impFix, impScalar, jsem, Val.contentOr])
  · exact C20_unrepresentable_is_refused env pcfg _ _ _ rfl

end Thors.Props
