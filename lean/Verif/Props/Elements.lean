import Verif.Proofs.JsonImport
import Verif.Proofs.ImpOrder
import Verif.Props.JsonSize
import Verif.Proofs.BsonExport
import Verif.Proofs.YamlPresents
import Verif.Proofs.Yaml
/-
C134: arrays are read and written element by element.
-/
namespace Thors.Props
open Thors Thors.Spec StrIn

/-- Elements put into a vector one by one. -/
theorem impVec_iff (env : Env) (ty : Ty) : ∀ (es : List Imp) (old : List Val) (x : Val),
    impVec env .back ty es old = .ok x ↔ ∃ vs : List Val, es.map (fun e => e ty (ty.default env)) = vs.map .ok ∧ x = .list (old ++ vs)
  | [], old, x => by
    rw [impVec]
    constructor
    · intro h; exact ⟨[], rfl, by rw [← Res.ok_inj h, List.append_nil]⟩
    · rintro ⟨vs, h, rfl⟩
      cases vs with
      | nil => simp
      | cons v vs => cases h
  | e :: es, old, x => by
    rw [impVec]
    constructor
    · intro h
      obtain ⟨v, hv, h⟩ := Res.bind_eq_ok.mp h
      obtain ⟨vs, h1, rfl⟩ := (impVec_iff env ty es _ x).1 h
      exact ⟨v :: vs, by rw [List.map_cons, List.map_cons, hv, h1], by simp [SeqKind.insert]⟩
    · rintro ⟨vs, h, rfl⟩
      cases vs with
      | nil => cases h
      | cons v vs =>
        rw [List.map_cons, List.map_cons] at h
        obtain ⟨h1, h2⟩ := List.cons.inj h
        rw [h1]
        exact (impVec_iff env ty es _ _).2 ⟨vs, h2, by simp [SeqKind.insert]⟩

/-- C134, reading. The elements of an array, each a document by itself: the array can be imported into a `std::vector` if and only if each of them can be imported into a
fresh element, and these are then appended in order. -/
theorem C134_import (env : Env) (cfg : Cfg) (conv : Bool) (ty : Ty) (old : List Val) (x : Val) (es : List (JTree × Bytes)) (t : Bytes)
    (he : ∀ e ∈ es, JDoc codePair e.1 e.2) (hdoc : JDoc codePair (.arr (es.map Prod.fst)) t)
    (hskip : cfg.strict = .Weak → ∀ e ∈ es, e.1.skippable (jsem conv) = true) :
    jsonImport env cfg conv (.vec ty) (.list old) t = .ok x ↔
      ∃ vs : List Val, es.map (fun e => jsonImport env cfg conv ty (ty.default env) e.2) = vs.map .ok ∧ x = .list (old ++ vs) := by
  have hall : ∀ l : List (JTree × Bytes), (∀ e ∈ l, e.1.skippable (jsem conv) = true) → Tr.skippable.all (jsem conv) (l.map Prod.fst) = true := by
    intro l
    induction l with
    | nil => intro _; rfl
    | cons e l ih =>
      intro h
      rw [List.map_cons, Tr.skippable.all, h e (.head _), ih fun e he => h e (.tail _ he)]
      rfl
  rw [jsonImport_doc env cfg hdoc _ _ (.inl fun h => by rw [Tr.skippable]; exact hall es (hskip h))]
  simp only [imp, Ty.vec, impArr]
  rw [impVec_iff, elems_eq, List.map_map, List.map_map]
  have : es.map (((fun e => e ty (ty.default env)) ∘ imp (jsem conv) env cfg) ∘ Prod.fst) = es.map fun e => jsonImport env cfg conv ty (ty.default env) e.2 := by
    apply List.map_congr_left
    intro e h
    exact (jsonImport_doc env cfg (he e h) ty _ (.inl fun hw => hskip hw e h)).symm
  rw [this]

/-- C134, reading BSON. -/
theorem C134_import_bson (env : Env) (cfg : Cfg) (ty : Ty) (old : List Val) (x : Val) (es : List BTree) (rest : Bytes)
    (he : ∀ e ∈ es, Storable32 e ∧ bsonBase env ty = BsonP.rootKind e) (h : Storable32 (.arr es)) :
    bsonImport env cfg (.vec ty) (.list old) (bdoc (.arr es) ++ rest) = .ok x ↔
      ∃ vs : List Val, es.map (fun e => bsonImport env cfg ty (ty.default env) (bdoc e ++ rest)) = vs.map .ok ∧ x = .list (old ++ vs) := by
  rw [bsonImport_doc env cfg _ h rest (.vec ty) rfl]
  simp only [imp, Ty.vec, impArr]
  rw [impVec_iff, elems_eq, List.map_map]
  have : es.map ((fun e => e ty (ty.default env)) ∘ imp bsem env cfg) = es.map fun e => bsonImport env cfg ty (ty.default env) (bdoc e ++ rest) := by
    apply List.map_congr_left
    intro e hm
    exact (bsonImport_doc env cfg e (he e hm).1 rest ty (he e hm).2 _).symm
  rw [this]

/-- C134, reading YAML. -/
theorem C134_import_yaml (env : Env) (cfg : Cfg) (ty : Ty) (old : List Val) (x : Val) (es : List YTree) (rest : List YEv) :
    yamlImport env cfg (.vec ty) (.list old) ([.streamStart, .docStart] ++ yevents (.arr es) ++ .docEnd :: rest) = .ok x ↔
      ∃ vs : List Val, es.map (fun e => yamlImport env cfg ty (ty.default env) ([.streamStart, .docStart] ++ yevents e ++ .docEnd :: rest)) = vs.map .ok ∧ x = .list (old ++ vs) := by
  rw [yamlImport_doc]
  simp only [imp, Ty.vec, impArr]
  rw [impVec_iff, elems_eq, List.map_map]
  have : es.map ((fun e => e ty (ty.default env)) ∘ imp ysem env cfg) =
      es.map fun e => yamlImport env cfg ty (ty.default env) ([.streamStart, .docStart] ++ yevents e ++ .docEnd :: rest) := by
    apply List.map_congr_left
    intro e hm
    exact (yamlImport_doc env cfg e rest ty _).symm
  rw [this]

/-- The tokens of an array. -/
private theorem toks_elems : ∀ ts : List Doc, (toks.elems streamText ts).flatten = commas (ts.map fun d => (toks streamText d).flatten)
  | [] => rfl
  | [t] => by simp [toks.elems, commas]
  | t :: t' :: ts => by
    have := toks_elems (t' :: ts)
    rw [toks.elems, List.flatten_append, List.flatten_cons, this]
    simp [commas]

private theorem docList_each (env : Env) (cfg : PrintCfg) (hl : cfg.layout = .Stream) (ty : Ty) : ∀ (vs : List Val) (ds : List Doc), docList env cfg.marker ty vs = .ok ds →
    vs.map (jsonExport env cfg ty) = (ds.map fun d => (toks streamText d).flatten).map .ok
  | [], ds, h => by
    simp [docList] at h
    subst h
    rfl
  | v :: vs, ds, h => by
    rw [docList] at h
    obtain ⟨d, hd, h⟩ := Res.bind_eq_ok.mp h
    obtain ⟨ds', hds, h⟩ := Res.bind_eq_ok.mp h
    cases h
    rw [List.map_cons, List.map_cons, List.map_cons, docList_each env cfg hl ty vs ds' hds, export_stream env cfg hl ty v d hd]

/-- C134, writing. Without white space the text of a sequence container is the texts of its elements, each exported by itself, with commas between them and brackets
around them. -/
theorem C134_export (env : Env) (cfg : PrintCfg) (hl : cfg.layout = .Stream) (c : SeqKind) (ty : Ty) (vs : List Val) (d : Doc)
    (hd : Spec.docOf env cfg.marker (.seq c ty) (.list vs) = .ok d) :
    ∃ texts : List Bytes, vs.map (jsonExport env cfg ty) = texts.map .ok ∧ jsonExport env cfg (.seq c ty) (.list vs) = .ok (b!"[" ++ commas texts ++ b!"]") := by
  have h := hd
  simp only [Spec.docOf] at h
  obtain ⟨ds, hds, h⟩ := Res.bind_eq_ok.mp h
  cases h
  refine ⟨_, docList_each env cfg hl ty vs ds hds, ?_⟩
  rw [export_stream env cfg hl _ _ _ hd, toks, List.cons_append, List.flatten_cons, List.flatten_append, toks_elems]
  simp

/-- The tokens of an object. -/
theorem toks_members : ∀ ms : List (Bytes × Doc),
    (toks.members streamText ms).flatten = commas (ms.map fun m => b!"\"" ++ m.1 ++ b!"\":" ++ (toks streamText m.2).flatten)
  | [] => rfl
  | [(k, t)] => by simp [toks.members, commas]
  | (k, t) :: m :: ms => by
    have := toks_members (m :: ms)
    rw [toks.members]
    simp [this, commas]

private theorem docDict_each (env : Env) (cfg : PrintCfg) (hl : cfg.layout = .Stream) (ty : Ty) : ∀ (kvs : List (Bytes × Val)) (ds : List (Bytes × Doc)),
    docDict env cfg.marker ty kvs = .ok ds → (kvs.map fun e => jsonExport env cfg ty e.2) = (ds.map fun m => (toks streamText m.2).flatten).map .ok ∧ kvs.map Prod.fst = ds.map Prod.fst
  | [], ds, h => by
    simp [docDict] at h
    subst h
    exact ⟨rfl, rfl⟩
  | (k, v) :: kvs, ds, h => by
    rw [docDict] at h
    obtain ⟨d, hd, h⟩ := Res.bind_eq_ok.mp h
    obtain ⟨ds', hds, h⟩ := Res.bind_eq_ok.mp h
    cases h
    obtain ⟨h1, h2⟩ := docDict_each env cfg hl ty kvs ds' hds
    refine ⟨?_, by simp [h2]⟩
    rw [List.map_cons, List.map_cons, List.map_cons, h1, export_stream env cfg hl ty v d hd]

/-- C134, writing. The text of a `std::map` with strings for keys is likewise the texts of its values, each behind its key in quotes. -/
theorem C134_export_map (env : Env) (cfg : PrintCfg) (hl : cfg.layout = .Stream) (ty : Ty) (kvs : List (Bytes × Val)) (d : Doc)
    (hd : Spec.docOf env cfg.marker (.smap ty) (.dict kvs) = .ok d) :
    ∃ texts : List Bytes, (kvs.map fun e => jsonExport env cfg ty e.2) = texts.map .ok ∧
      jsonExport env cfg (.smap ty) (.dict kvs) = .ok (b!"{" ++ commas (List.zipWith (fun k t => b!"\"" ++ k ++ b!"\":" ++ t) (kvs.map Prod.fst) texts) ++ b!"}") := by
  have h := hd
  simp only [Spec.docOf] at h
  obtain ⟨ds, hds, h⟩ := Res.bind_eq_ok.mp h
  cases h
  obtain ⟨h1, h2⟩ := docDict_each env cfg hl ty kvs ds hds
  refine ⟨_, h1, ?_⟩
  rw [export_stream env cfg hl _ _ _ hd, toks, List.cons_append, List.flatten_cons, List.flatten_append, toks_members, h2]
  simp [List.zipWith_map]

private theorem docList_yaml (accepts : Bytes → Bool) (env : Env) (mk : Bytes) (ty : Ty) : ∀ (vs : List Val) (ds : List Doc), docList env mk ty vs = .ok ds →
    AllKeys (fun k => accepts k = true) (.arr ds) → AllScalars (fun a => accepts (yatom a) = true) (.arr ds) →
    ∃ evs : List (List YEv), vs.map (yamlExport accepts env mk ty) = evs.map (fun e => .ok ([.streamStart, .docStart] ++ e ++ [.docEnd, .streamEnd])) ∧
      yevents.elems (ytree.elems ds) = evs.flatten
  | [], ds, h, _, _ => by
    simp [docList] at h
    subst h
    exact ⟨[], rfl, rfl⟩
  | v :: vs, ds, h, hk, ha => by
    rw [docList] at h
    obtain ⟨d, hd, h⟩ := Res.bind_eq_ok.mp h
    obtain ⟨ds', hds, h⟩ := Res.bind_eq_ok.mp h
    cases h
    obtain ⟨evs, h1, h2⟩ := docList_yaml accepts env mk ty vs ds' hds hk.2 ha.2
    refine ⟨yevents (ytree d) :: evs, ?_, ?_⟩
    · rw [List.map_cons, List.map_cons, h1, yaml_export_doc accepts env mk ty v d hd hk.1 ha.1]
      rfl
    · rw [ytree.elems, yevents.elems, h2, List.flatten_cons]

/-- C134, writing YAML: between the start and the end of the sequence come the events of its elements, each exported by itself. (`accepts`: which scalars libyaml takes;
all scalars and keys of the document are such.) -/
theorem C134_export_yaml (accepts : Bytes → Bool) (env : Env) (mk : Bytes) (c : SeqKind) (ty : Ty) (vs : List Val) (d : Doc)
    (hd : Spec.docOf env mk (.seq c ty) (.list vs) = .ok d) (hk : AllKeys (fun k => accepts k = true) d) (ha : AllScalars (fun a => accepts (yatom a) = true) d) :
    ∃ evs : List (List YEv), vs.map (yamlExport accepts env mk ty) = evs.map (fun e => .ok ([.streamStart, .docStart] ++ e ++ [.docEnd, .streamEnd])) ∧
      yamlExport accepts env mk (.seq c ty) (.list vs) = .ok ([.streamStart, .docStart] ++ (.seqStart :: evs.flatten ++ [.seqEnd]) ++ [.docEnd, .streamEnd]) := by
  have h := hd
  simp only [Spec.docOf] at h
  obtain ⟨ds, hds, h⟩ := Res.bind_eq_ok.mp h
  cases h
  obtain ⟨evs, h1, h2⟩ := docList_yaml accepts env mk ty vs ds hds hk ha
  refine ⟨evs, h1, ?_⟩
  rw [yaml_export_doc accepts env mk _ _ _ hd hk ha, ydoc, ytree, yevents, h2]

/-- C134 for tuples, whose elements have types of their own. -/
private theorem docTuple_each (env : Env) (cfg : PrintCfg) (hl : cfg.layout = .Stream) : ∀ (ts : List Ty) (vs : List Val) (ds : List Doc), docTuple env cfg.marker ts vs = .ok ds →
    List.zipWith (jsonExport env cfg) ts vs = (ds.map fun d => (toks streamText d).flatten).map .ok
  | [], [], ds, h => by
    simp [docTuple] at h
    subst h
    rfl
  | [], _ :: _, ds, h => by simp [docTuple] at h
  | _ :: _, [], ds, h => by simp [docTuple] at h
  | t :: ts, v :: vs, ds, h => by
    rw [docTuple] at h
    obtain ⟨d, hd, h⟩ := Res.bind_eq_ok.mp h
    obtain ⟨ds', hds, h⟩ := Res.bind_eq_ok.mp h
    cases h
    rw [List.zipWith_cons_cons, docTuple_each env cfg hl ts vs ds' hds, export_stream env cfg hl t v d hd]
    rfl

theorem C134_export_tuple (env : Env) (cfg : PrintCfg) (hl : cfg.layout = .Stream) (i : Nat) (ts : List Ty) (hi : env.defs i = .tuple ts) (vs : List Val) (d : Doc)
    (hd : Spec.docOf env cfg.marker (.named i) (.list vs) = .ok d) :
    ∃ texts : List Bytes, List.zipWith (jsonExport env cfg) ts vs = texts.map .ok ∧ jsonExport env cfg (.named i) (.list vs) = .ok (b!"[" ++ commas texts ++ b!"]") := by
  have h := hd
  simp only [Spec.docOf, hi] at h
  obtain ⟨ds, hds, h⟩ := Res.bind_eq_ok.mp h
  cases h
  refine ⟨_, docTuple_each env cfg hl ts vs ds hds, ?_⟩
  rw [export_stream env cfg hl _ _ _ hd, toks, List.cons_append, List.flatten_cons, List.flatten_append, toks_elems]
  simp

/-- non-vacuity: `[[1],[2,3]]` into a vector that holds an empty vector; a vector and a map that are exported. -/
example : jsonImport Samples.env ⟨.Strict, []⟩ true (.vec (.vec Samples.int32)) (.list [.list []]) (Samples.text (.arr [.arr [Samples.num 1], .arr [Samples.num 2, Samples.num 3]])) =
    .ok (.list [.list [], .list [.int 1], .list [.int 2, .int 3]]) := by
  refine (C134_import Samples.env ⟨.Strict, []⟩ true (.vec Samples.int32) [.list []] _
    [(.arr [Samples.num 1], Samples.text (.arr [Samples.num 1])), (.arr [Samples.num 2, Samples.num 3], Samples.text (.arr [Samples.num 2, Samples.num 3]))] _
    ?_ (Samples.plain_doc _ (by decide)) (fun h => by cases h)).2 ⟨[.list [.int 1], .list [.int 2, .int 3]], ?_, rfl⟩
  · intro e he
    simp only [List.mem_cons, List.not_mem_nil, or_false] at he
    rcases he with rfl | rfl <;> exact Samples.plain_doc _ (by decide)
  · simp only [List.map_cons, List.map_nil]
    rw [jsonImport_doc _ _ (Samples.plain_doc _ (by decide)) _ _ (.inl fun h => by cases h), jsonImport_doc _ _ (Samples.plain_doc _ (by decide)) _ _ (.inl fun h => by cases h)]
    rfl
example (env : Env) : bsonImport env ⟨.Strict, []⟩ (.vec (.vec .bool)) (.list []) (bdoc (.arr [.arr [.scalar (.bool true)], .arr []]) ++ []) =
    .ok (.list [.list [.bool true], .list []]) := by
  have s1 : Storable32 (.arr [.scalar (.bool true)]) := ⟨⟨trivial, trivial⟩, ⟨trivial, trivial⟩, by decide +kernel⟩
  have s2 : Storable32 (.arr []) := ⟨trivial, trivial, by decide +kernel⟩
  refine (C134_import_bson env ⟨.Strict, []⟩ (.vec .bool) [] _ [.arr [.scalar (.bool true)], .arr []] [] ?_
    ⟨⟨⟨trivial, trivial⟩, trivial, trivial⟩, ⟨⟨trivial, trivial⟩, trivial, trivial⟩, by decide +kernel⟩).2 ⟨[.list [.bool true], .list []], ?_, rfl⟩
  · intro e he
    simp only [List.mem_cons, List.not_mem_nil, or_false] at he
    rcases he with rfl | rfl
    · exact ⟨s1, rfl⟩
    · exact ⟨s2, rfl⟩
  · simp only [List.map_cons, List.map_nil]
    rw [bsonImport_doc _ _ _ s1 _ _ rfl, bsonImport_doc _ _ _ s2 _ _ rfl]
    rfl
example (env : Env) : yamlImport env ⟨.Strict, []⟩ (.vec .bool) (.list [.bool false]) ([.streamStart, .docStart] ++ yevents (.arr [.scalar b!"true"]) ++ .docEnd :: [.streamEnd]) =
    .ok (.list [.bool false, .bool true]) := by
  refine (C134_import_yaml env ⟨.Strict, []⟩ .bool [.bool false] _ [.scalar b!"true"] [.streamEnd]).2 ⟨[.bool true], ?_, rfl⟩
  simp only [List.map_cons, List.map_nil]
  rw [yamlImport_doc]
  rfl
example (env : Env) : ∃ texts : List Bytes, [Val.int 1, .int (-2)].map (jsonExport env { layout := .Stream } Samples.int32) = texts.map .ok ∧
    jsonExport env { layout := .Stream } (.seq .back Samples.int32) (.list [.int 1, .int (-2)]) = .ok (b!"[" ++ commas texts ++ b!"]") :=
  C134_export env { layout := .Stream } rfl .back Samples.int32 _ _ (by simp [Spec.docOf, docList, Samples.int32]; rfl)
example (env : Env) : ∃ texts : List Bytes, ([(b!"a", Val.bool true), (b!"b", .bool false)].map fun e => jsonExport env { layout := .Stream } .bool e.2) = texts.map .ok ∧
    jsonExport env { layout := .Stream } (.smap .bool) (.dict [(b!"a", .bool true), (b!"b", .bool false)]) =
      .ok (b!"{" ++ commas (List.zipWith (fun k t => b!"\"" ++ k ++ b!"\":" ++ t) [b!"a", b!"b"] texts) ++ b!"}") :=
  C134_export_map env { layout := .Stream } rfl .bool _ _ (by simp [Spec.docOf, docDict]; rfl)
example (env : Env) : ∃ evs : List (List YEv), [Val.bool true, .bool false].map (yamlExport (fun _ => true) env [] .bool) =
      evs.map (fun e => .ok ([.streamStart, .docStart] ++ e ++ [.docEnd, .streamEnd])) ∧
    yamlExport (fun _ => true) env [] (.seq .back .bool) (.list [.bool true, .bool false]) =
      .ok ([.streamStart, .docStart] ++ (.seqStart :: evs.flatten ++ [.seqEnd]) ++ [.docEnd, .streamEnd]) :=
  C134_export_yaml (fun _ => true) env [] .back .bool _ (.arr [.scalar (.bool true), .scalar (.bool false)]) (by simp [Spec.docOf, docList]) ⟨trivial, trivial, trivial⟩ ⟨rfl, rfl, trivial⟩
example : ∃ texts : List Bytes, List.zipWith (jsonExport Samples.env { layout := .Stream }) [Samples.int32, .bool] [.int 4, .bool true] = texts.map .ok ∧
    jsonExport Samples.env { layout := .Stream } (.named 3) (.list [.int 4, .bool true]) = .ok (b!"[" ++ commas texts ++ b!"]") :=
  C134_export_tuple Samples.env { layout := .Stream } rfl 3 _ rfl _ _ (by simp [Spec.docOf, Samples.env, Samples.int32, docTuple]; rfl)

end Thors.Props
