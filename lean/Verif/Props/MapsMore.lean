import Verif.Props.Containers
import Verif.Props.Bson
import Verif.Proofs.YamlPresents
/-
C39 (repeated keys) for YAML and BSON.
-/
namespace Thors.Props
open Thors Spec StrIn

section
variable {X : Type} (sem : ScalarSem Bytes X) (env : Env) (cfg : Cfg) (t : Ty)

private theorem sorted_fold (hk : ∀ k, sem.key k = k) : ∀ (es : List (Bytes × Tr Bytes X × Val)) (_ : ∀ e ∈ es, ∀ w, imp sem env cfg e.2.1 t w = .ok e.2.2) (old : List (Bytes × Val)),
    impDict sem env .sorted t (imp.members sem env cfg (es.map fun e => (e.1, e.2.1))) old =
      .ok (.dict ((es.map fun e => (e.1, e.2.2)).foldl (fun acc p => dictSet p.1 p.2 acc) old))
  | [], _, _ => by simp [imp.members, impDict]
  | e :: es, h, old => by
    simp only [List.map_cons, imp.members, impDict, h e (by simp), Res.ok_bind, List.foldl_cons, hk]
    exact sorted_fold hk es (fun e he => h e (by simp [he])) _

private theorem multi_fold (hk : ∀ k, sem.key k = k) : ∀ (es : List (Bytes × Tr Bytes X × Val)) (_ : ∀ e ∈ es, imp sem env cfg e.2.1 t (t.default env) = .ok e.2.2) (old : List (Bytes × Val)),
    impDict sem env .multi t (imp.members sem env cfg (es.map fun e => (e.1, e.2.1))) old =
      .ok (.dict ((es.map fun e => (e.1, e.2.2)).foldl (fun acc p => multiInsert p.1 p.2 acc) old))
  | [], _, _ => by simp [imp.members, impDict]
  | e :: es, h, old => by
    simp only [List.map_cons, imp.members, impDict, h e (by simp), Res.ok_bind, List.foldl_cons, hk]
    exact multi_fold hk es (fun e he => h e (by simp [he])) _

private theorem unordered_fold (hk : ∀ k, sem.key k = k) : ∀ (es : List (Bytes × Tr Bytes X × Val)) (_ : ∀ e ∈ es, imp sem env cfg e.2.1 t (t.default env) = .ok e.2.2) (old : List (Bytes × Val)),
    impDict sem env .unordered t (imp.members sem env cfg (es.map fun e => (e.1, e.2.1))) old =
      .ok (.dict ((es.map fun e => (e.1, e.2.2)).foldl (fun acc p => uniqueInsert p.1 p.2 acc) old))
  | [], _, _ => by simp [imp.members, impDict]
  | e :: es, h, old => by
    simp only [List.map_cons, imp.members, impDict, h e (by simp), Res.ok_bind, List.foldl_cons, hk]
    exact unordered_fold hk es (fun e he => h e (by simp [he])) _
end

/-- C39 for YAML and `std::map`, proved part: the last value of a key counts. `es` are the entries of the mapping with the values they have: each value, as a document by itself,
gives the same whatever was there before. Missing: element types for which it does not, as in `C39_map_last_wins_partial`. -/
theorem C39_yaml_map_last_wins_partial (env : Env) (cfg : Cfg) (t : Ty) (es : List (Bytes × YTree × Val)) (rest : List YEv) (old : List (Bytes × Val)) (hold : Ascending old)
    (hval : ∀ e ∈ es, ∀ w, yamlImport env cfg t w ([.streamStart, .docStart] ++ yevents e.2.1 ++ .docEnd :: []) = .ok e.2.2) :
    ∃ new, yamlImport env cfg (.smap t) (.dict old) ([.streamStart, .docStart] ++ yevents (.obj (es.map fun e => (e.1, e.2.1))) ++ .docEnd :: rest) = .ok (.dict new) ∧
      Ascending new ∧ ∀ k, firstOf k new = (lastOf k (es.map fun e => (e.1, e.2.2))).or (firstOf k old) := by
  refine ⟨_, ?_, fold_sorted _ old hold⟩
  rw [yamlImport_doc, imp, impObj]
  exact sorted_fold ysem env cfg t (fun _ => rfl) es (fun e he w => by rw [← yamlImport_doc env cfg e.2.1 []]; exact hval e he w) old

/-- C39 for YAML and `std::unordered_map`: the first value wins, and a key that was there before keeps its value. -/
theorem C39_yaml_unordered_first_wins (env : Env) (cfg : Cfg) (t : Ty) (es : List (Bytes × YTree × Val)) (rest : List YEv) (old : List (Bytes × Val)) (hold : (old.map Prod.fst).Nodup)
    (hval : ∀ e ∈ es, yamlImport env cfg t (t.default env) ([.streamStart, .docStart] ++ yevents e.2.1 ++ .docEnd :: []) = .ok e.2.2) :
    ∃ new, yamlImport env cfg (.umap t) (.dict old) ([.streamStart, .docStart] ++ yevents (.obj (es.map fun e => (e.1, e.2.1))) ++ .docEnd :: rest) = .ok (.dict new) ∧
      (new.map Prod.fst).Nodup ∧ ∀ k, firstOf k new = (firstOf k old).or (firstOf k (es.map fun e => (e.1, e.2.2))) := by
  refine ⟨_, ?_, fold_unique _ old hold⟩
  rw [yamlImport_doc, imp, impObj]
  exact unordered_fold ysem env cfg t (fun _ => rfl) es (fun e he => by rw [← yamlImport_doc env cfg e.2.1 []]; exact hval e he) old

/-- C39 for YAML and `std::multimap`: every value is kept. -/
theorem C39_yaml_multimap_keeps_all (env : Env) (cfg : Cfg) (t : Ty) (es : List (Bytes × YTree × Val)) (rest : List YEv) (old : List (Bytes × Val)) (hold : InOrder old)
    (hval : ∀ e ∈ es, yamlImport env cfg t (t.default env) ([.streamStart, .docStart] ++ yevents e.2.1 ++ .docEnd :: []) = .ok e.2.2) :
    ∃ new, yamlImport env cfg (.mmap t) (.dict old) ([.streamStart, .docStart] ++ yevents (.obj (es.map fun e => (e.1, e.2.1))) ++ .docEnd :: rest) = .ok (.dict new) ∧
      InOrder new ∧ ∀ k, allOf k new = allOf k old ++ allOf k (es.map fun e => (e.1, e.2.2)) := by
  refine ⟨_, ?_, fold_multi _ old hold⟩
  rw [yamlImport_doc, imp, impObj]
  exact multi_fold ysem env cfg t (fun _ => rfl) es (fun e he => by rw [← yamlImport_doc env cfg e.2.1 []]; exact hval e he) old

/-- C39 for BSON and `std::map`, proved part: the last value of a key counts. Missing: as for YAML. -/
theorem C39_bson_map_last_wins_partial (env : Env) (cfg : Cfg) (t : Ty) (es : List (Bytes × BTree × Val)) (rest : Bytes) (old : List (Bytes × Val)) (hold : Ascending old)
    (hd : Storable32 (.obj (es.map fun e => (e.1, e.2.1)))) (hval : ∀ e ∈ es, ∀ w, imp bsem env cfg e.2.1 t w = .ok e.2.2) :
    ∃ new, bsonImport env cfg (.smap t) (.dict old) (bdoc (.obj (es.map fun e => (e.1, e.2.1))) ++ rest) = .ok (.dict new) ∧
      Ascending new ∧ ∀ k, firstOf k new = (lastOf k (es.map fun e => (e.1, e.2.2))).or (firstOf k old) := by
  refine ⟨_, ?_, fold_sorted _ old hold⟩
  rw [bsonImport_doc env cfg _ hd rest _ rfl, imp, impObj]
  exact sorted_fold bsem env cfg t (fun _ => rfl) es hval old

/-- C39 for BSON and `std::unordered_map`. -/
theorem C39_bson_unordered_first_wins (env : Env) (cfg : Cfg) (t : Ty) (es : List (Bytes × BTree × Val)) (rest : Bytes) (old : List (Bytes × Val)) (hold : (old.map Prod.fst).Nodup)
    (hd : Storable32 (.obj (es.map fun e => (e.1, e.2.1)))) (hval : ∀ e ∈ es, imp bsem env cfg e.2.1 t (t.default env) = .ok e.2.2) :
    ∃ new, bsonImport env cfg (.umap t) (.dict old) (bdoc (.obj (es.map fun e => (e.1, e.2.1))) ++ rest) = .ok (.dict new) ∧
      (new.map Prod.fst).Nodup ∧ ∀ k, firstOf k new = (firstOf k old).or (firstOf k (es.map fun e => (e.1, e.2.2))) := by
  refine ⟨_, ?_, fold_unique _ old hold⟩
  rw [bsonImport_doc env cfg _ hd rest _ rfl, imp, impObj]
  exact unordered_fold bsem env cfg t (fun _ => rfl) es hval old

/-- C39 for BSON and `std::multimap`. -/
theorem C39_bson_multimap_keeps_all (env : Env) (cfg : Cfg) (t : Ty) (es : List (Bytes × BTree × Val)) (rest : Bytes) (old : List (Bytes × Val)) (hold : InOrder old)
    (hd : Storable32 (.obj (es.map fun e => (e.1, e.2.1)))) (hval : ∀ e ∈ es, imp bsem env cfg e.2.1 t (t.default env) = .ok e.2.2) :
    ∃ new, bsonImport env cfg (.mmap t) (.dict old) (bdoc (.obj (es.map fun e => (e.1, e.2.1))) ++ rest) = .ok (.dict new) ∧
      InOrder new ∧ ∀ k, allOf k new = allOf k old ++ allOf k (es.map fun e => (e.1, e.2.2)) := by
  refine ⟨_, ?_, fold_multi _ old hold⟩
  rw [bsonImport_doc env cfg _ hd rest _ rfl, imp, impObj]
  exact multi_fold bsem env cfg t (fun _ => rfl) es hval old

/-- non-vacuity: `{b: 1, a: 2, b: 3}` in YAML and BSON, into maps of `int` that have the key `a`. -/
private def ydup : List (Bytes × YTree × Val) := [(b!"b", .scalar b!"1", .int 1), (b!"a", .scalar b!"2", .int 2), (b!"b", .scalar b!"3", .int 3)]
private theorem ydup_are : ∀ e ∈ ydup, ∀ w, yamlImport Samples.env ⟨.Strict, []⟩ Samples.int32 w ([.streamStart, .docStart] ++ yevents e.2.1 ++ .docEnd :: []) = .ok e.2.2 := by
  intro e he w
  rw [yamlImport_doc]
  simp only [ydup, List.mem_cons, List.not_mem_nil, or_false] at he
  rcases he with rfl | rfl | rfl <;> rfl
private def bdup : List (Bytes × BTree × Val) := [(b!"b", .scalar (.int32 1), .int 1), (b!"a", .scalar (.int32 2), .int 2), (b!"b", .scalar (.int32 3), .int 3)]
private theorem bdup_are : ∀ e ∈ bdup, ∀ w, imp bsem Samples.env ⟨.Strict, []⟩ e.2.1 Samples.int32 w = .ok e.2.2 := by
  intro e he w
  simp only [bdup, List.mem_cons, List.not_mem_nil, or_false] at he
  rcases he with rfl | rfl | rfl <;> rfl
private theorem bdup_stored : Storable32 (.obj (bdup.map fun e => (e.1, e.2.1))) :=
  ⟨⟨by decide, trivial, by decide, trivial, by decide, trivial, trivial⟩, ⟨show BScalar.valid (.int32 1) from by simp [BScalar.valid],
    show BScalar.valid (.int32 2) from by simp [BScalar.valid], show BScalar.valid (.int32 3) from by simp [BScalar.valid], trivial⟩, by decide +kernel⟩
example : ∃ new, yamlImport Samples.env ⟨.Strict, []⟩ (.smap Samples.int32) (.dict [(b!"a", .int 9)]) ([.streamStart, .docStart] ++ yevents (.obj (ydup.map fun e => (e.1, e.2.1))) ++
    .docEnd :: []) = .ok (.dict new) ∧ firstOf b!"b" new = some (.int 3) := by
  obtain ⟨new, h, -, h2⟩ := C39_yaml_map_last_wins_partial Samples.env ⟨.Strict, []⟩ Samples.int32 ydup [] [(b!"a", .int 9)] (by simp [Ascending]) ydup_are
  exact ⟨new, h, h2 b!"b"⟩
example : ∃ new, yamlImport Samples.env ⟨.Strict, []⟩ (.umap Samples.int32) (.dict [(b!"a", .int 9)]) ([.streamStart, .docStart] ++ yevents (.obj (ydup.map fun e => (e.1, e.2.1))) ++
    .docEnd :: []) = .ok (.dict new) ∧ firstOf b!"b" new = some (.int 1) ∧ firstOf b!"a" new = some (.int 9) := by
  obtain ⟨new, h, -, h2⟩ := C39_yaml_unordered_first_wins Samples.env ⟨.Strict, []⟩ Samples.int32 ydup [] [(b!"a", .int 9)] (by simp) (fun e he => ydup_are e he _)
  exact ⟨new, h, h2 b!"b", h2 b!"a"⟩
example : ∃ new, bsonImport Samples.env ⟨.Strict, []⟩ (.smap Samples.int32) (.dict [(b!"a", .int 9)]) (bdoc (.obj (bdup.map fun e => (e.1, e.2.1))) ++ []) = .ok (.dict new) ∧
    firstOf b!"b" new = some (.int 3) := by
  obtain ⟨new, h, -, h2⟩ := C39_bson_map_last_wins_partial Samples.env ⟨.Strict, []⟩ Samples.int32 bdup [] [(b!"a", .int 9)] (by simp [Ascending]) bdup_stored bdup_are
  exact ⟨new, h, h2 b!"b"⟩
example : ∃ new, bsonImport Samples.env ⟨.Strict, []⟩ (.mmap Samples.int32) (.dict [(b!"a", .int 9)]) (bdoc (.obj (bdup.map fun e => (e.1, e.2.1))) ++ []) = .ok (.dict new) ∧
    allOf b!"b" new = [.int 1, .int 3] ∧ allOf b!"a" new = [.int 9, .int 2] := by
  obtain ⟨new, h, -, h2⟩ := C39_bson_multimap_keeps_all Samples.env ⟨.Strict, []⟩ Samples.int32 bdup [] [(b!"a", .int 9)] (by simp [InOrder]) bdup_stored (fun e he => bdup_are e he _)
  exact ⟨new, h, h2 b!"b", h2 b!"a"⟩

end Thors.Props
