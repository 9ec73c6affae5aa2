import Verif.Spec.Members
import Verif.Props.Elements
import Verif.Props.Samples
import Verif.Props.Reexport
/-
C136: objects are written member by member.
-/
namespace Thors.Props
open Thors Thors.Spec

section
variable (env : Env) (cfg : PrintCfg) (hl : cfg.layout = .Stream)

/-- The members of a document have the texts their values have by themselves. -/
private def Each (ws : List Written) (ds : List (Bytes × Doc)) : Prop :=
  (ws.map fun w => jsonExport env cfg w.ty w.val) = (ds.map fun m => (toks streamText m.2).flatten).map .ok ∧ ws.map Written.key = ds.map Prod.fst

private theorem Each.append {ws ws' : List Written} {ds ds' : List (Bytes × Doc)} (h : Each env cfg ws ds) (h' : Each env cfg ws' ds') : Each env cfg (ws ++ ws') (ds ++ ds') := by
  unfold Each at *
  simp only [List.map_append, h.1, h.2, h'.1, h'.2, and_self]

include hl

private theorem docOwn_each (f : Option (Val → Bytes → Bool)) (self : Val) : ∀ (ms : List Member) (vs : List Val) (ds : List (Bytes × Doc)),
    docOwn env cfg.marker f self ms vs = .ok ds → Each env cfg (writtenOwn f self ms vs) ds
  | [], [], ds, h => by
    rw [docOwn] at h
    cases h
    exact ⟨rfl, rfl⟩
  | [], _ :: _, ds, h => by simp [docOwn] at h
  | _ :: _, [], ds, h => by simp [docOwn] at h
  | m :: ms, v :: vs, ds, h => by
    rw [docOwn] at h
    split at h
    · rename_i hs
      obtain ⟨d, hd, h⟩ := Res.bind_eq_ok.mp h
      obtain ⟨ds', hds, h⟩ := Res.bind_eq_ok.mp h
      cases h
      obtain ⟨h1, h2⟩ := docOwn_each f self ms vs ds' hds
      have e : writtenOwn f self (m :: ms) (v :: vs) = ⟨m.out, m.ty, v⟩ :: writtenOwn f self ms vs := by simp [writtenOwn, hs]
      rw [e]
      refine ⟨?_, by simp [h2]⟩
      rw [List.map_cons, List.map_cons, List.map_cons, h1, export_stream env cfg hl m.ty v d hd]
    · rename_i hs
      have e : writtenOwn f self (m :: ms) (v :: vs) = writtenOwn f self ms vs := by simp [writtenOwn, hs]
      rw [e]
      exact docOwn_each f self ms vs ds h

private theorem docParents_each : ∀ (dps : List StructDef) (ps : List Val) (ds : List (Bytes × Doc)),
    docParents env cfg.marker dps ps = .ok ds → Each env cfg (writtenParents dps ps) ds
  | [], [], ds, h => by
    rw [docParents] at h
    cases h
    simp [Each, writtenParents]
  | [], _ :: _, ds, h => by simp [docParents] at h
  | .mk .. :: _, [], ds, h => by simp [docParents] at h
  | .mk dps ms f :: dds, v :: vs, ds, h => by
    cases v with
    | obj ps fs =>
      rw [docParents] at h
      obtain ⟨a, ha, h⟩ := Res.bind_eq_ok.mp h
      obtain ⟨b, hb, h⟩ := Res.bind_eq_ok.mp h
      obtain ⟨c, hc, h⟩ := Res.bind_eq_ok.mp h
      cases h
      rw [writtenParents]
      exact Each.append env cfg (Each.append env cfg (docOwn_each env cfg hl f _ ms fs a ha) (docParents_each dps ps b hb)) (docParents_each dds vs c hc)
    | _ => simp [docParents] at h

end

private theorem zip_texts (ws : List Written) (ds : List (Bytes × Doc)) (h : ws.map Written.key = ds.map Prod.fst) :
    List.zipWith memberText (ws.map Written.key) (ds.map fun m => (toks streamText m.2).flatten) =
      ds.map fun m => b!"\"" ++ m.1 ++ b!"\":" ++ (toks streamText m.2).flatten := by
  rw [h]
  simp [List.zipWith_map, memberText]

private theorem toks_obj (ms : List (Bytes × Doc)) :
    (toks streamText (.obj ms)).flatten = b!"{" ++ commas (ms.map fun m => b!"\"" ++ m.1 ++ b!"\":" ++ (toks streamText m.2).flatten) ++ b!"}" := by
  rw [toks, List.cons_append, List.flatten_cons, List.flatten_append, toks_members]
  simp

private theorem typeKey_eq {env : Env} {i : Nat} {c : ClassDef} (hc : env.defs i = .cls c) (mk : Bytes) : polyMarker env mk i = typeKey mk c.typeField := by
  unfold polyMarker typeKey
  by_cases h : mk = [] <;> simp [h, hc]

/-- C136. Without white space the text of an object of a class is the texts of the members that are written, each exported by itself, behind their names; if the class
has a type field of its own, its name as a string comes first. -/
theorem C136_class (env : Env) (cfg : PrintCfg) (hl : cfg.layout = .Stream) (i : Nat) (c : ClassDef) (hc : env.defs i = .cls c) (v : Val) (hv : ∃ ps fs, v = .obj ps fs) (d : Doc)
    (hd : Spec.docOf env cfg.marker (.named i) v = .ok d) :
    ∃ (texts : List Bytes) (name : Bytes), ((written c.traits v).map fun w => jsonExport env cfg w.ty w.val) = texts.map .ok ∧
      jsonExport env cfg .str (.str c.serName) = .ok name ∧
      jsonExport env cfg (.named i) v = .ok (b!"{" ++ commas ((if c.typeField.isSome then [memberText (typeKey cfg.marker c.typeField) name] else []) ++
        List.zipWith memberText ((written c.traits v).map Written.key) texts) ++ b!"}") := by
  obtain ⟨ps, fs, rfl⟩ := hv
  obtain ⟨⟨dps, ms, f⟩, sn, field⟩ := c
  have h := hd
  simp only [Spec.docOf, hc] at h
  obtain ⟨a, ha, h⟩ := Res.bind_eq_ok.mp h
  obtain ⟨b, hb, h⟩ := Res.bind_eq_ok.mp h
  cases h
  have e := Each.append env cfg (docOwn_each env cfg hl f _ ms fs a ha) (docParents_each env cfg hl dps ps b hb)
  refine ⟨_, (toks streamText (.scalar (.str sn))).flatten, e.1, export_stream env cfg hl .str (.str sn) (.scalar (.str sn)) rfl, ?_⟩
  rw [export_stream env cfg hl _ _ _ hd, toks_obj, typeKey_eq hc]
  rw [show written (.mk dps ms f) (.obj ps fs) = writtenOwn f (.obj ps fs) ms fs ++ writtenParents dps ps from rfl, zip_texts _ _ e.2]
  cases field <;> simp [memberText]

/-- C136 behind a pointer to a polymorphic class: the name of the class of the object comes first, under the marker. -/
theorem C136_pointer (env : Env) (cfg : PrintCfg) (hl : cfg.layout = .Stream) (b i : Nat) (c : ClassDef) (hc : env.defs i = .cls c) (v : Val) (hv : ∃ ps fs, v = .obj ps fs) (d : Doc)
    (hd : Spec.docOf env cfg.marker (.pptr b) (.dyn i v) = .ok d) :
    ∃ (texts : List Bytes) (name : Bytes), ((written c.traits v).map fun w => jsonExport env cfg w.ty w.val) = texts.map .ok ∧
      jsonExport env cfg .str (.str c.serName) = .ok name ∧
      jsonExport env cfg (.pptr b) (.dyn i v) = .ok (b!"{" ++ commas (memberText (typeKey cfg.marker c.typeField) name ::
        List.zipWith memberText ((written c.traits v).map Written.key) texts) ++ b!"}") := by
  obtain ⟨ps, fs, rfl⟩ := hv
  obtain ⟨⟨dps, ms, f⟩, sn, field⟩ := c
  have h := hd
  simp only [Spec.docOf, hc] at h
  obtain ⟨a, ha, h⟩ := Res.bind_eq_ok.mp h
  obtain ⟨b, hb, h⟩ := Res.bind_eq_ok.mp h
  cases h
  have e := Each.append env cfg (docOwn_each env cfg hl f _ ms fs a ha) (docParents_each env cfg hl dps ps b hb)
  refine ⟨_, (toks streamText (.scalar (.str sn))).flatten, e.1, export_stream env cfg hl .str (.str sn) (.scalar (.str sn)) rfl, ?_⟩
  rw [export_stream env cfg hl _ _ _ hd, toks_obj, typeKey_eq hc]
  rw [show written (.mk dps ms f) (.obj ps fs) = writtenOwn f (.obj ps fs) ms fs ++ writtenParents dps ps from rfl, zip_texts _ _ e.2]
  simp [memberText]

/-- C136 for an object in a variant: the name of its class comes first, too. -/
theorem C136_variant (env : Env) (cfg : PrintCfg) (hl : cfg.layout = .Stream) (j i : Nat) (c : ClassDef) (hc : env.defs i = .cls c) (v : Val) (hv : ∃ ps fs, v = .obj ps fs) (d : Doc)
    (hd : Spec.docOf env cfg.marker (.named j) (.alt i v) = .ok d) :
    ∃ (texts : List Bytes) (name : Bytes), ((written c.traits v).map fun w => jsonExport env cfg w.ty w.val) = texts.map .ok ∧
      jsonExport env cfg .str (.str c.serName) = .ok name ∧
      jsonExport env cfg (.named j) (.alt i v) = .ok (b!"{" ++ commas (memberText (typeKey cfg.marker c.typeField) name ::
        List.zipWith memberText ((written c.traits v).map Written.key) texts) ++ b!"}") := by
  obtain ⟨ps, fs, rfl⟩ := hv
  obtain ⟨⟨dps, ms, f⟩, sn, field⟩ := c
  have h := hd
  simp only [Spec.docOf, hc] at h
  obtain ⟨a, ha, h⟩ := Res.bind_eq_ok.mp h
  obtain ⟨b, hb, h⟩ := Res.bind_eq_ok.mp h
  cases h
  have e := Each.append env cfg (docOwn_each env cfg hl f _ ms fs a ha) (docParents_each env cfg hl dps ps b hb)
  refine ⟨_, (toks streamText (.scalar (.str sn))).flatten, e.1, export_stream env cfg hl .str (.str sn) (.scalar (.str sn)) rfl, ?_⟩
  rw [export_stream env cfg hl _ _ _ hd, toks_obj, typeKey_eq hc]
  rw [show written (.mk dps ms f) (.obj ps fs) = writtenOwn f (.obj ps fs) ms fs ++ writtenParents dps ps from rfl, zip_texts _ _ e.2]
  simp [memberText]

/-- non-vacuity: a sample `Point` with a base class and a member that is called differently in documents. -/
def point136 : Val := .obj [.obj [] [.int 1]] [.int 2, .list [.int 3]]
theorem point136_doc : Spec.docOf Samples.env [] (.named 1) point136 =
    .ok (.obj [(b!"x", .scalar (.int ⟨32, true⟩ 2)), (b!"why", .arr [.scalar (.int ⟨32, true⟩ 3)]), (b!"b", .scalar (.int ⟨32, true⟩ 1))]) := by
  simp [point136, Spec.docOf, docOwn, docParents, docList, shown, Samples.env, Samples.int32, Ty.vec]
theorem point136_written : written (.mk [.mk [] [⟨b!"b", b!"b", Samples.int32⟩] none] [⟨b!"x", b!"x", Samples.int32⟩, ⟨b!"y", b!"why", .vec Samples.int32⟩] none) point136 =
    [⟨b!"x", Samples.int32, .int 2⟩, ⟨b!"why", .vec Samples.int32, .list [.int 3]⟩, ⟨b!"b", Samples.int32, .int 1⟩] := by
  simp [point136, written, writtenOwn, writtenParents, shown, Samples.int32, Ty.vec]
example : ∃ x y z : Bytes, jsonExport Samples.env { layout := .Stream } (.named 1) point136 =
    .ok (b!"{\"x\":" ++ x ++ b!",\"why\":" ++ y ++ b!",\"b\":" ++ z ++ b!"}") ∧ jsonExport Samples.env { layout := .Stream } (.vec Samples.int32) (.list [.int 3]) = .ok y := by
  obtain ⟨texts, name, h1, -, h3⟩ := C136_class Samples.env { layout := .Stream } rfl 1 _ rfl point136 ⟨_, _, rfl⟩ _ point136_doc
  rw [point136_written] at h1 h3
  match texts, h1 with
  | [x, y, z], h1 =>
    simp only [List.map_cons, List.map_nil, List.cons.injEq] at h1
    exact ⟨x, y, z, by rw [h3]; simp [commas, memberText], h1.2.1⟩
/-- An empty optional is not written. -/
example : written (.mk [] [⟨b!"a", b!"a", .opt .bool⟩, ⟨b!"b", b!"bee", .bool⟩] none) (.obj [] [.none, .bool true]) = [⟨b!"bee", .bool, .bool true⟩] := by
  simp [written, writtenOwn, writtenParents, shown]
/-- An object behind a pointer. -/
example : ∃ d, Spec.docOf Samples.env [] (.pptr 0) (.dyn 0 (.obj [] [.int 1])) = .ok d := ⟨_, by simp [Spec.docOf, Samples.env, Samples.int32, docOwn, docParents, shown]; rfl⟩
example : ∃ d, Spec.docOf env104 [] (.named 4) (.alt 0 (.obj [] [.int 1])) = .ok d := ⟨_, by simp [Spec.docOf, env104, Samples.int32, docOwn, docParents, shown]; rfl⟩

end Thors.Props
