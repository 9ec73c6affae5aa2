import Verif.Props.Elements
/-
C134, writing YAML: maps and tuples.
-/
namespace Thors.Props
open Thors Spec

private theorem docDict_yaml (accepts : Bytes → Bool) (env : Env) (mk : Bytes) (ty : Ty) : ∀ (kvs : List (Bytes × Val)) (ds : List (Bytes × Doc)), docDict env mk ty kvs = .ok ds →
    AllKeys (fun k => accepts k = true) (.obj ds) → AllScalars (fun a => accepts (yatom a) = true) (.obj ds) →
    ∃ evs : List (List YEv), (kvs.map fun e => yamlExport accepts env mk ty e.2) = evs.map (fun e => .ok ([.streamStart, .docStart] ++ e ++ [.docEnd, .streamEnd])) ∧
      yevents.members (ytree.members ds) = (List.zipWith (fun k e => .scalar k :: e) (kvs.map Prod.fst) evs).flatten
  | [], ds, h, _, _ => by
    simp [docDict] at h
    subst h
    exact ⟨[], rfl, rfl⟩
  | (k, v) :: kvs, ds, h, hk, ha => by
    rw [docDict] at h
    obtain ⟨d, hd, h⟩ := Res.bind_eq_ok.mp h
    obtain ⟨ds', hds, h⟩ := Res.bind_eq_ok.mp h
    cases h
    obtain ⟨evs, h1, h2⟩ := docDict_yaml accepts env mk ty kvs ds' hds hk.2.2 ha.2
    refine ⟨yevents (ytree d) :: evs, ?_, ?_⟩
    · rw [List.map_cons, List.map_cons, h1, yaml_export_doc accepts env mk ty v d hd hk.2.1 ha.1]
      rfl
    · rw [ytree.members, yevents.members, h2, List.map_cons, List.zipWith_cons_cons, List.flatten_cons]

private theorem docTuple_yaml (accepts : Bytes → Bool) (env : Env) (mk : Bytes) : ∀ (ts : List Ty) (vs : List Val) (ds : List Doc), docTuple env mk ts vs = .ok ds →
    AllKeys (fun k => accepts k = true) (.arr ds) → AllScalars (fun a => accepts (yatom a) = true) (.arr ds) →
    ∃ evs : List (List YEv), List.zipWith (yamlExport accepts env mk) ts vs = evs.map (fun e => .ok ([.streamStart, .docStart] ++ e ++ [.docEnd, .streamEnd])) ∧
      yevents.elems (ytree.elems ds) = evs.flatten
  | [], [], ds, h, _, _ => by
    simp [docTuple] at h
    subst h
    exact ⟨[], rfl, rfl⟩
  | [], _ :: _, ds, h, _, _ => by simp [docTuple] at h
  | _ :: _, [], ds, h, _, _ => by simp [docTuple] at h
  | t :: ts, v :: vs, ds, h, hk, ha => by
    rw [docTuple] at h
    obtain ⟨d, hd, h⟩ := Res.bind_eq_ok.mp h
    obtain ⟨ds', hds, h⟩ := Res.bind_eq_ok.mp h
    cases h
    obtain ⟨evs, h1, h2⟩ := docTuple_yaml accepts env mk ts vs ds' hds hk.2 ha.2
    refine ⟨yevents (ytree d) :: evs, ?_, ?_⟩
    · rw [List.zipWith_cons_cons, List.map_cons, h1, yaml_export_doc accepts env mk t v d hd hk.1 ha.1]
      rfl
    · rw [ytree.elems, yevents.elems, h2, List.flatten_cons]

/-- C134, writing a `std::map` with strings for keys as YAML: for each entry its key and the events of its value, exported by itself. -/
theorem C134_export_map_yaml (accepts : Bytes → Bool) (env : Env) (mk : Bytes) (ty : Ty) (kvs : List (Bytes × Val)) (d : Doc)
    (hd : Spec.docOf env mk (.smap ty) (.dict kvs) = .ok d) (hk : AllKeys (fun k => accepts k = true) d) (ha : AllScalars (fun a => accepts (yatom a) = true) d) :
    ∃ evs : List (List YEv), (kvs.map fun e => yamlExport accepts env mk ty e.2) = evs.map (fun e => .ok ([.streamStart, .docStart] ++ e ++ [.docEnd, .streamEnd])) ∧
      yamlExport accepts env mk (.smap ty) (.dict kvs) =
        .ok ([.streamStart, .docStart] ++ (.mapStart :: (List.zipWith (fun k e => .scalar k :: e) (kvs.map Prod.fst) evs).flatten ++ [.mapEnd]) ++ [.docEnd, .streamEnd]) := by
  have h := hd
  simp only [Spec.docOf] at h
  obtain ⟨ds, hds, h⟩ := Res.bind_eq_ok.mp h
  cases h
  obtain ⟨evs, h1, h2⟩ := docDict_yaml accepts env mk ty kvs ds hds hk ha
  refine ⟨evs, h1, ?_⟩
  rw [yaml_export_doc accepts env mk _ _ _ hd hk ha, ydoc, ytree, yevents, h2]

/-- C134, writing a tuple as YAML. -/
theorem C134_export_tuple_yaml (accepts : Bytes → Bool) (env : Env) (mk : Bytes) (i : Nat) (ts : List Ty) (hi : env.defs i = .tuple ts) (vs : List Val) (d : Doc)
    (hd : Spec.docOf env mk (.named i) (.list vs) = .ok d) (hk : AllKeys (fun k => accepts k = true) d) (ha : AllScalars (fun a => accepts (yatom a) = true) d) :
    ∃ evs : List (List YEv), List.zipWith (yamlExport accepts env mk) ts vs = evs.map (fun e => .ok ([.streamStart, .docStart] ++ e ++ [.docEnd, .streamEnd])) ∧
      yamlExport accepts env mk (.named i) (.list vs) = .ok ([.streamStart, .docStart] ++ (.seqStart :: evs.flatten ++ [.seqEnd]) ++ [.docEnd, .streamEnd]) := by
  have h := hd
  simp only [Spec.docOf, hi] at h
  obtain ⟨ds, hds, h⟩ := Res.bind_eq_ok.mp h
  cases h
  obtain ⟨evs, h1, h2⟩ := docTuple_yaml accepts env mk ts vs ds hds hk ha
  refine ⟨evs, h1, ?_⟩
  rw [yaml_export_doc accepts env mk _ _ _ hd hk ha, ydoc, ytree, yevents, h2]

/-- non-vacuity: a map with one entry; a tuple of a number and a bool. -/
example (env : Env) : ∃ evs : List (List YEv), [(b!"k", Val.bool true)].map (fun e => yamlExport (fun _ => true) env [] .bool e.2) =
      evs.map (fun e => .ok ([.streamStart, .docStart] ++ e ++ [.docEnd, .streamEnd])) ∧
    yamlExport (fun _ => true) env [] (.smap .bool) (.dict [(b!"k", .bool true)]) =
      .ok ([.streamStart, .docStart] ++ (.mapStart :: (List.zipWith (fun k e => .scalar k :: e) [b!"k"] evs).flatten ++ [.mapEnd]) ++ [.docEnd, .streamEnd]) :=
  C134_export_map_yaml (fun _ => true) env [] .bool [(b!"k", .bool true)] (.obj [(b!"k", .scalar (.bool true))]) (by simp [Spec.docOf, docDict]) ⟨rfl, trivial, trivial⟩ ⟨rfl, trivial⟩
example : ∃ evs : List (List YEv), List.zipWith (yamlExport (fun _ => true) Samples.env []) [Samples.int32, .bool] [.int 4, .bool true] =
      evs.map (fun e => .ok ([.streamStart, .docStart] ++ e ++ [.docEnd, .streamEnd])) ∧
    yamlExport (fun _ => true) Samples.env [] (.named 3) (.list [.int 4, .bool true]) =
      .ok ([.streamStart, .docStart] ++ (.seqStart :: evs.flatten ++ [.seqEnd]) ++ [.docEnd, .streamEnd]) :=
  C134_export_tuple_yaml (fun _ => true) Samples.env [] 3 _ rfl _ (.arr [.scalar (.int ⟨32, true⟩ 4), .scalar (.bool true)])
    (by simp [Spec.docOf, Samples.env, Samples.int32, docTuple]) ⟨trivial, trivial, trivial⟩ ⟨rfl, rfl, trivial⟩

end Thors.Props
