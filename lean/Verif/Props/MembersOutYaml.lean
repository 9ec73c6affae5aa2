import Verif.Props.MembersOut
/-
C136 for YAML: the mapping of an object has the events of its members.
-/
namespace Thors.Props
open Thors Spec

/-- The members of a document are the documents of the values, under their names. -/
private def DocEach (env : Env) (mk : Bytes) (ws : List Written) (ds : List (Bytes × Doc)) : Prop :=
  (ws.map fun w => Spec.docOf env mk w.ty w.val) = ds.map (fun m => .ok m.2) ∧ ws.map Written.key = ds.map Prod.fst

private theorem DocEach.append {env : Env} {mk : Bytes} {ws ws' : List Written} {ds ds' : List (Bytes × Doc)} (h : DocEach env mk ws ds) (h' : DocEach env mk ws' ds') :
    DocEach env mk (ws ++ ws') (ds ++ ds') := by
  unfold DocEach at *
  simp only [List.map_append, h.1, h.2, h'.1, h'.2, and_self]

private theorem docOwn_doc (env : Env) (mk : Bytes) (f : Option (Val → Bytes → Bool)) (self : Val) : ∀ (ms : List Member) (vs : List Val) (ds : List (Bytes × Doc)),
    docOwn env mk f self ms vs = .ok ds → DocEach env mk (writtenOwn f self ms vs) ds
  | [], [], ds, h => by
    rw [docOwn] at h
    cases h
    exact ⟨rfl, rfl⟩
  | [], _ :: _, ds, h => by simp [docOwn] at h
  | _ :: _, [], ds, h => by simp [docOwn] at h
  | m :: ms, v :: vs, ds, h => by
    rw [docOwn] at h
    split at h
    · rename_i hs
      obtain ⟨d, hd, h⟩ := Res.bind_eq_ok.mp h
      obtain ⟨ds', hds, h⟩ := Res.bind_eq_ok.mp h
      cases h
      obtain ⟨h1, h2⟩ := docOwn_doc env mk f self ms vs ds' hds
      have e : writtenOwn f self (m :: ms) (v :: vs) = ⟨m.out, m.ty, v⟩ :: writtenOwn f self ms vs := by simp [writtenOwn, hs]
      rw [e]
      refine ⟨?_, by simp [h2]⟩
      rw [List.map_cons, List.map_cons, h1, hd]
    · rename_i hs
      have e : writtenOwn f self (m :: ms) (v :: vs) = writtenOwn f self ms vs := by simp [writtenOwn, hs]
      rw [e]
      exact docOwn_doc env mk f self ms vs ds h

private theorem docParents_doc (env : Env) (mk : Bytes) : ∀ (dps : List StructDef) (ps : List Val) (ds : List (Bytes × Doc)),
    docParents env mk dps ps = .ok ds → DocEach env mk (writtenParents dps ps) ds
  | [], [], ds, h => by
    rw [docParents] at h
    cases h
    simp [DocEach, writtenParents]
  | [], _ :: _, ds, h => by simp [docParents] at h
  | .mk .. :: _, [], ds, h => by simp [docParents] at h
  | .mk dps ms f :: dds, v :: vs, ds, h => by
    cases v with
    | obj ps fs =>
      rw [docParents] at h
      obtain ⟨a, ha, h⟩ := Res.bind_eq_ok.mp h
      obtain ⟨b, hb, h⟩ := Res.bind_eq_ok.mp h
      obtain ⟨c, hc, h⟩ := Res.bind_eq_ok.mp h
      cases h
      rw [writtenParents]
      exact ((docOwn_doc env mk f _ ms fs a ha).append (docParents_doc env mk dps ps b hb)).append (docParents_doc env mk dds vs c hc)
    | _ => simp [docParents] at h

private theorem members_yaml (accepts : Bytes → Bool) (env : Env) (mk : Bytes) : ∀ (ws : List Written) (ds : List (Bytes × Doc)), DocEach env mk ws ds →
    AllKeys.members (fun k => accepts k = true) ds → AllScalars.members (fun a => accepts (yatom a) = true) ds →
    ∃ evs : List (List YEv), (ws.map fun w => yamlExport accepts env mk w.ty w.val) = evs.map (fun e => .ok ([.streamStart, .docStart] ++ e ++ [.docEnd, .streamEnd])) ∧
      yevents.members (ytree.members ds) = (List.zipWith (fun k e => .scalar k :: e) (ws.map Written.key) evs).flatten
  | [], [], _, _, _ => ⟨[], rfl, rfl⟩
  | [], _ :: _, h, _, _ => by simp [DocEach] at h
  | _ :: _, [], h, _, _ => by simp [DocEach] at h
  | w :: ws, (k, d) :: ds, h, hk, ha => by
    obtain ⟨h1, h2⟩ := h
    simp only [List.map_cons, List.cons.injEq] at h1 h2
    obtain ⟨evs, e1, e2⟩ := members_yaml accepts env mk ws ds ⟨h1.2, h2.2⟩ hk.2.2 ha.2
    refine ⟨yevents (ytree d) :: evs, ?_, ?_⟩
    · rw [List.map_cons, List.map_cons, e1, yaml_export_doc accepts env mk w.ty w.val d h1.1 hk.2.1 ha.1]
      rfl
    · rw [ytree.members, yevents.members, e2, List.map_cons, List.zipWith_cons_cons, List.flatten_cons, h2.1]

private theorem typeKey_of {env : Env} {i : Nat} {c : ClassDef} (hc : env.defs i = .cls c) (mk : Bytes) : polyMarker env mk i = typeKey mk c.typeField := by
  unfold polyMarker typeKey
  by_cases h : mk = [] <;> simp [h, hc]

/-- C136 for YAML. The events of an object of a class: for each member that is written its name and the events it has by itself; if the class has a type field of its own, the
name of the class comes first. (`accepts`: which scalars libyaml takes; all scalars and keys of the document are such.) -/
theorem C136_class_yaml (accepts : Bytes → Bool) (env : Env) (mk : Bytes) (i : Nat) (c : ClassDef) (hc : env.defs i = .cls c) (v : Val) (hv : ∃ ps fs, v = .obj ps fs) (d : Doc)
    (hd : Spec.docOf env mk (.named i) v = .ok d) (hk : AllKeys (fun k => accepts k = true) d) (ha : AllScalars (fun a => accepts (yatom a) = true) d) :
    ∃ evs : List (List YEv),
      ((written c.traits v).map fun w => yamlExport accepts env mk w.ty w.val) = evs.map (fun e => .ok ([.streamStart, .docStart] ++ e ++ [.docEnd, .streamEnd])) ∧
      yamlExport accepts env mk (.named i) v = .ok ([.streamStart, .docStart] ++ (.mapStart :: ((if c.typeField.isSome then [.scalar (typeKey mk c.typeField), .scalar c.serName] else []) ++
        (List.zipWith (fun k e => .scalar k :: e) ((written c.traits v).map Written.key) evs).flatten) ++ [.mapEnd]) ++ [.docEnd, .streamEnd]) := by
  obtain ⟨ps, fs, rfl⟩ := hv
  obtain ⟨⟨dps, ms, f⟩, sn, field⟩ := c
  have h := hd
  simp only [Spec.docOf, hc] at h
  obtain ⟨a, ha', h⟩ := Res.bind_eq_ok.mp h
  obtain ⟨b, hb, h⟩ := Res.bind_eq_ok.mp h
  cases h
  have e := (docOwn_doc env mk f _ ms fs a ha').append (docParents_doc env mk dps ps b hb)
  rw [show written (.mk dps ms f) (.obj ps fs) = writtenOwn f (.obj ps fs) ms fs ++ writtenParents dps ps from rfl]
  cases field with
  | none =>
    obtain ⟨evs, e1, e2⟩ := members_yaml accepts env mk _ _ e (by simpa [AllKeys] using hk) (by simpa [AllScalars] using ha)
    refine ⟨evs, e1, ?_⟩
    rw [yaml_export_doc accepts env mk _ _ _ hd hk ha, ydoc, ytree, yevents, ← e2]
    simp
  | some fd =>
    obtain ⟨evs, e1, e2⟩ := members_yaml accepts env mk _ _ e (by simp [AllKeys, AllKeys.members] at hk; exact hk.2) (by simp [AllScalars, AllScalars.members] at ha; exact ha.2)
    refine ⟨evs, e1, ?_⟩
    rw [yaml_export_doc accepts env mk _ _ _ hd hk ha, ydoc, ytree, yevents, ← e2, ← typeKey_of hc]
    simp [ytree.members, yevents.members, ytree, yevents, yatom]

/-- C136 for YAML, behind a pointer to a polymorphic class: the name of the class of the object comes first, under the marker. -/
theorem C136_pointer_yaml (accepts : Bytes → Bool) (env : Env) (mk : Bytes) (b i : Nat) (c : ClassDef) (hc : env.defs i = .cls c) (v : Val) (hv : ∃ ps fs, v = .obj ps fs) (d : Doc)
    (hd : Spec.docOf env mk (.pptr b) (.dyn i v) = .ok d) (hk : AllKeys (fun k => accepts k = true) d) (ha : AllScalars (fun a => accepts (yatom a) = true) d) :
    ∃ evs : List (List YEv),
      ((written c.traits v).map fun w => yamlExport accepts env mk w.ty w.val) = evs.map (fun e => .ok ([.streamStart, .docStart] ++ e ++ [.docEnd, .streamEnd])) ∧
      yamlExport accepts env mk (.pptr b) (.dyn i v) = .ok ([.streamStart, .docStart] ++ (.mapStart :: (.scalar (typeKey mk c.typeField) :: .scalar c.serName ::
        (List.zipWith (fun k e => .scalar k :: e) ((written c.traits v).map Written.key) evs).flatten) ++ [.mapEnd]) ++ [.docEnd, .streamEnd]) := by
  obtain ⟨ps, fs, rfl⟩ := hv
  obtain ⟨⟨dps, ms, f⟩, sn, field⟩ := c
  have h := hd
  simp only [Spec.docOf, hc] at h
  obtain ⟨a, ha', h⟩ := Res.bind_eq_ok.mp h
  obtain ⟨b', hb, h⟩ := Res.bind_eq_ok.mp h
  cases h
  have e := (docOwn_doc env mk f _ ms fs a ha').append (docParents_doc env mk dps ps b' hb)
  rw [show written (.mk dps ms f) (.obj ps fs) = writtenOwn f (.obj ps fs) ms fs ++ writtenParents dps ps from rfl]
  obtain ⟨evs, e1, e2⟩ := members_yaml accepts env mk _ _ e (by simp [AllKeys, AllKeys.members] at hk; exact hk.2) (by simp [AllScalars, AllScalars.members] at ha; exact ha.2)
  refine ⟨evs, e1, ?_⟩
  rw [yaml_export_doc accepts env mk _ _ _ hd hk ha, ydoc, ytree, yevents, ← e2, ← typeKey_of hc]
  simp [ytree.members, yevents.members, ytree, yevents, yatom]

/-- C136 for YAML, an object in a variant: the name of its class comes first, too. -/
theorem C136_variant_yaml (accepts : Bytes → Bool) (env : Env) (mk : Bytes) (j i : Nat) (c : ClassDef) (hc : env.defs i = .cls c) (v : Val) (hv : ∃ ps fs, v = .obj ps fs) (d : Doc)
    (hd : Spec.docOf env mk (.named j) (.alt i v) = .ok d) (hk : AllKeys (fun k => accepts k = true) d) (ha : AllScalars (fun a => accepts (yatom a) = true) d) :
    ∃ evs : List (List YEv),
      ((written c.traits v).map fun w => yamlExport accepts env mk w.ty w.val) = evs.map (fun e => .ok ([.streamStart, .docStart] ++ e ++ [.docEnd, .streamEnd])) ∧
      yamlExport accepts env mk (.named j) (.alt i v) = .ok ([.streamStart, .docStart] ++ (.mapStart :: (.scalar (typeKey mk c.typeField) :: .scalar c.serName ::
        (List.zipWith (fun k e => .scalar k :: e) ((written c.traits v).map Written.key) evs).flatten) ++ [.mapEnd]) ++ [.docEnd, .streamEnd]) := by
  obtain ⟨ps, fs, rfl⟩ := hv
  obtain ⟨⟨dps, ms, f⟩, sn, field⟩ := c
  have h := hd
  simp only [Spec.docOf, hc] at h
  obtain ⟨a, ha', h⟩ := Res.bind_eq_ok.mp h
  obtain ⟨b', hb, h⟩ := Res.bind_eq_ok.mp h
  cases h
  have e := (docOwn_doc env mk f _ ms fs a ha').append (docParents_doc env mk dps ps b' hb)
  rw [show written (.mk dps ms f) (.obj ps fs) = writtenOwn f (.obj ps fs) ms fs ++ writtenParents dps ps from rfl]
  obtain ⟨evs, e1, e2⟩ := members_yaml accepts env mk _ _ e (by simp [AllKeys, AllKeys.members] at hk; exact hk.2) (by simp [AllScalars, AllScalars.members] at ha; exact ha.2)
  refine ⟨evs, e1, ?_⟩
  rw [yaml_export_doc accepts env mk _ _ _ hd hk ha, ydoc, ytree, yevents, ← e2, ← typeKey_of hc]
  simp [ytree.members, yevents.members, ytree, yevents, yatom]

/-- non-vacuity: the sample `Point` of MembersOut.lean, if libyaml takes all its scalars. -/
example : ∃ x y z : List YEv, yamlExport (fun _ => true) Samples.env [] (.named 1) point136 =
      .ok ([.streamStart, .docStart, .mapStart] ++ (.scalar b!"x" :: x) ++ (.scalar b!"why" :: y) ++ (.scalar b!"b" :: z) ++ [.mapEnd, .docEnd, .streamEnd]) ∧
    yamlExport (fun _ => true) Samples.env [] (.vec Samples.int32) (.list [.int 3]) = .ok ([.streamStart, .docStart] ++ y ++ [.docEnd, .streamEnd]) := by
  obtain ⟨evs, h1, h3⟩ := C136_class_yaml (fun _ => true) Samples.env [] 1 _ rfl point136 ⟨_, _, rfl⟩ _ point136_doc (by simp [AllKeys, AllKeys.members, AllKeys.elems])
    (by simp [AllScalars, AllScalars.members, AllScalars.elems])
  rw [point136_written] at h1 h3
  have hl : 3 = evs.length := by simpa using congrArg List.length h1
  match evs, hl, h1 with
  | [x, y, z], _, h1 =>
    simp only [List.map_cons, List.map_nil, List.cons.injEq] at h1
    exact ⟨x, y, z, by rw [h3]; simp, h1.2.1⟩
/-- An object behind a pointer, and one in a variant. -/
example : ∃ x : List YEv, yamlExport (fun _ => true) Samples.env [] (.pptr 0) (.dyn 0 (.obj [] [.int 1])) =
    .ok ([.streamStart, .docStart, .mapStart, .scalar b!"__type", .scalar b!"Base", .scalar b!"b"] ++ x ++ [.mapEnd, .docEnd, .streamEnd]) := by
  have hd : Spec.docOf Samples.env [] (.pptr 0) (.dyn 0 (.obj [] [.int 1])) = .ok (.obj [(b!"__type", .scalar (.str b!"Base")), (b!"b", .scalar (.int ⟨32, true⟩ 1))]) := by
    simp [Spec.docOf, Samples.env, Samples.int32, docOwn, docParents, shown, polyMarker]
  obtain ⟨evs, h1, h3⟩ := C136_pointer_yaml (fun _ => true) Samples.env [] 0 0 _ rfl (.obj [] [.int 1]) ⟨_, _, rfl⟩ _ hd (by simp [AllKeys, AllKeys.members])
    (by simp [AllScalars, AllScalars.members])
  rw [show written _ (.obj [] [.int 1]) = [⟨b!"b", Samples.int32, .int 1⟩] by simp [Samples.int32, written, writtenOwn, writtenParents, shown]] at h1 h3
  have hl : 1 = evs.length := by simpa using congrArg List.length h1
  match evs, hl with
  | [x], _ => exact ⟨x, by rw [h3]; simp [typeKey]⟩
example : ∃ d, Spec.docOf env104 [] (.named 4) (.alt 0 (.obj [] [.int 1])) = .ok d ∧ AllKeys (fun k => (fun _ : Bytes => true) k = true) d := ⟨_, by
  simp [Spec.docOf, env104, Samples.int32, docOwn, docParents, shown]; rfl, by simp [AllKeys, AllKeys.members]⟩

end Thors.Props
