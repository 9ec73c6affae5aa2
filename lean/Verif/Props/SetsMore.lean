import Verif.Props.Sets
import Verif.Props.Bson
import Verif.Proofs.YamlPresents
/-
C71–C73 for YAML and BSON.
-/
namespace Thors.Props
open Thors Spec StrIn

private theorem set_spec (env : Env) (c : Nat) (old vs : List Val) (hc : StrictWeak (env.less c)) (ho : old.Pairwise (fun a b => env.less c a b = true)) :
    (vs.foldl ((SeqKind.sorted c).insert env) old).Pairwise (fun a b => env.less c a b = true) ∧
      ∀ x, x ∈ vs.foldl ((SeqKind.sorted c).insert env) old ↔ FirstOf (equivalent (env.less c)) x (old ++ vs) := by
  refine insertAll_firstOf (equivalent_equality hc) _ (fun l => l.Pairwise (fun a b => env.less c a b = true))
    (fun acc v h => (setInsert_spec hc v acc h).1) (fun acc v h => (setInsert_spec hc v acc h).2) _ old old ho fun x => ?_
  exact (firstOf_distinct (ho.imp fun {a b} h => by simp [equivalent, h]) x).symm

private theorem hashed_spec (env : Env) (c : Nat) (old vs : List Val) (hc : Equality (env.less c)) (ho : old.Pairwise (fun a b => env.less c a b = false)) :
    (vs.foldl ((SeqKind.hashed c).insert env) old).Pairwise (fun a b => env.less c a b = false) ∧
      ∀ x, x ∈ vs.foldl ((SeqKind.hashed c).insert env) old ↔ FirstOf (env.less c) x (old ++ vs) :=
  insertAll_firstOf hc _ (fun l => l.Pairwise (fun a b => env.less c a b = false))
    (fun acc v h => (hashInsert_spec acc v h).1) (fun acc v h => (hashInsert_spec acc v h).2) _ old old ho fun x => (firstOf_distinct ho x).symm

/-- Each tree, as a YAML document by itself, is imported into a fresh object of type `t` with the given value. -/
def yamlElemsAre (env : Env) (cfg : Cfg) (t : Ty) (es : List (YTree × Val)) : Prop :=
  ∀ e ∈ es, yamlImport env cfg t (t.default env) ([.streamStart, .docStart] ++ yevents e.1 ++ .docEnd :: []) = .ok e.2

private theorem yaml_seq (env : Env) (cfg : Cfg) (k : SeqKind) (t : Ty) (old : List Val) (es : List (YTree × Val)) (rest : List YEv) (he : yamlElemsAre env cfg t es) :
    yamlImport env cfg (.seq k t) (.list old) ([.streamStart, .docStart] ++ yevents (.arr (es.map Prod.fst)) ++ .docEnd :: rest) =
      .ok (.list ((es.map Prod.snd).foldl (k.insert env) old)) := by
  have he' : ∀ e ∈ es, imp ysem env cfg e.1 t (t.default env) = .ok e.2 := fun e h => by rw [← yamlImport_doc env cfg e.1 []]; exact he e h
  rw [yamlImport_doc, imp, impArr, impVec_fold ysem env cfg k t es he']

/-- C71 for YAML. -/
theorem C71_set_import_yaml (env : Env) (cfg : Cfg) (c : Nat) (t : Ty) (old : List Val) (es : List (YTree × Val)) (rest : List YEv)
    (hc : StrictWeak (env.less c)) (ho : old.Pairwise (fun a b => env.less c a b = true)) (he : yamlElemsAre env cfg t es) :
    ∃ r, yamlImport env cfg (.seq (.sorted c) t) (.list old) ([.streamStart, .docStart] ++ yevents (.arr (es.map Prod.fst)) ++ .docEnd :: rest) = .ok (.list r) ∧
      r.Pairwise (fun a b => env.less c a b = true) ∧ ∀ x, x ∈ r ↔ FirstOf (equivalent (env.less c)) x (old ++ es.map Prod.snd) :=
  ⟨_, yaml_seq env cfg _ t old es rest he, set_spec env c old _ hc ho⟩

/-- C72 for YAML. -/
theorem C72_multiset_import_yaml (env : Env) (cfg : Cfg) (c : Nat) (t : Ty) (old : List Val) (es : List (YTree × Val)) (rest : List YEv)
    (hc : StrictWeak (env.less c)) (ho : old.Pairwise (fun a b => env.less c b a = false)) (he : yamlElemsAre env cfg t es) :
    ∃ r, yamlImport env cfg (.seq (.multi c) t) (.list old) ([.streamStart, .docStart] ++ yevents (.arr (es.map Prod.fst)) ++ .docEnd :: rest) = .ok (.list r) ∧
      r.Pairwise (fun a b => env.less c b a = false) ∧ r.Perm (old ++ es.map Prod.snd) ∧
      ∀ x, r.filter (equivalent (env.less c) x) = (old ++ es.map Prod.snd).filter (equivalent (env.less c) x) :=
  ⟨_, yaml_seq env cfg _ t old es rest he, multisetInsert_all hc _ old ho⟩

/-- C73 for YAML. -/
theorem C73_unordered_set_import_yaml (env : Env) (cfg : Cfg) (c : Nat) (t : Ty) (old : List Val) (es : List (YTree × Val)) (rest : List YEv)
    (hc : Equality (env.less c)) (ho : old.Pairwise (fun a b => env.less c a b = false)) (he : yamlElemsAre env cfg t es) :
    ∃ r, yamlImport env cfg (.seq (.hashed c) t) (.list old) ([.streamStart, .docStart] ++ yevents (.arr (es.map Prod.fst)) ++ .docEnd :: rest) = .ok (.list r) ∧
      r.Pairwise (fun a b => env.less c a b = false) ∧ ∀ x, x ∈ r ↔ FirstOf (env.less c) x (old ++ es.map Prod.snd) :=
  ⟨_, yaml_seq env cfg _ t old es rest he, hashed_spec env c old _ hc ho⟩

/-- The elements of a BSON array have the given values. -/
def bsonElemsAre (env : Env) (cfg : Cfg) (t : Ty) (es : List (BTree × Val)) : Prop :=
  ∀ e ∈ es, imp bsem env cfg e.1 t (t.default env) = .ok e.2

private theorem bson_seq (env : Env) (cfg : Cfg) (k : SeqKind) (t : Ty) (old : List Val) (es : List (BTree × Val)) (rest : Bytes) (hd : Storable32 (.arr (es.map Prod.fst)))
    (he : bsonElemsAre env cfg t es) :
    bsonImport env cfg (.seq k t) (.list old) (bdoc (.arr (es.map Prod.fst)) ++ rest) = .ok (.list ((es.map Prod.snd).foldl (k.insert env) old)) := by
  rw [bsonImport_doc env cfg _ hd rest _ rfl, imp, impArr, impVec_fold bsem env cfg k t es he]

/-- C71 for BSON. -/
theorem C71_set_import_bson (env : Env) (cfg : Cfg) (c : Nat) (t : Ty) (old : List Val) (es : List (BTree × Val)) (rest : Bytes) (hd : Storable32 (.arr (es.map Prod.fst)))
    (hc : StrictWeak (env.less c)) (ho : old.Pairwise (fun a b => env.less c a b = true)) (he : bsonElemsAre env cfg t es) :
    ∃ r, bsonImport env cfg (.seq (.sorted c) t) (.list old) (bdoc (.arr (es.map Prod.fst)) ++ rest) = .ok (.list r) ∧
      r.Pairwise (fun a b => env.less c a b = true) ∧ ∀ x, x ∈ r ↔ FirstOf (equivalent (env.less c)) x (old ++ es.map Prod.snd) :=
  ⟨_, bson_seq env cfg _ t old es rest hd he, set_spec env c old _ hc ho⟩

/-- C72 for BSON. -/
theorem C72_multiset_import_bson (env : Env) (cfg : Cfg) (c : Nat) (t : Ty) (old : List Val) (es : List (BTree × Val)) (rest : Bytes) (hd : Storable32 (.arr (es.map Prod.fst)))
    (hc : StrictWeak (env.less c)) (ho : old.Pairwise (fun a b => env.less c b a = false)) (he : bsonElemsAre env cfg t es) :
    ∃ r, bsonImport env cfg (.seq (.multi c) t) (.list old) (bdoc (.arr (es.map Prod.fst)) ++ rest) = .ok (.list r) ∧
      r.Pairwise (fun a b => env.less c b a = false) ∧ r.Perm (old ++ es.map Prod.snd) ∧
      ∀ x, r.filter (equivalent (env.less c) x) = (old ++ es.map Prod.snd).filter (equivalent (env.less c) x) :=
  ⟨_, bson_seq env cfg _ t old es rest hd he, multisetInsert_all hc _ old ho⟩

/-- C73 for BSON. -/
theorem C73_unordered_set_import_bson (env : Env) (cfg : Cfg) (c : Nat) (t : Ty) (old : List Val) (es : List (BTree × Val)) (rest : Bytes) (hd : Storable32 (.arr (es.map Prod.fst)))
    (hc : Equality (env.less c)) (ho : old.Pairwise (fun a b => env.less c a b = false)) (he : bsonElemsAre env cfg t es) :
    ∃ r, bsonImport env cfg (.seq (.hashed c) t) (.list old) (bdoc (.arr (es.map Prod.fst)) ++ rest) = .ok (.list r) ∧
      r.Pairwise (fun a b => env.less c a b = false) ∧ ∀ x, x ∈ r ↔ FirstOf (env.less c) x (old ++ es.map Prod.snd) :=
  ⟨_, bson_seq env cfg _ t old es rest hd he, hashed_spec env c old _ hc ho⟩

/-- non-vacuity: the YAML sequence `[3, 1, 3]` and the same array in BSON, into a set or multiset that holds a 2. -/
private def yints : List (YTree × Val) := [(.scalar b!"3", .int 3), (.scalar b!"1", .int 1), (.scalar b!"3", .int 3)]
private theorem yints_are : yamlElemsAre setsEnv ⟨.Strict, []⟩ Samples.int32 yints := by
  intro e he
  rw [yamlImport_doc]
  simp only [yints, List.mem_cons, List.not_mem_nil, or_false] at he
  rcases he with rfl | rfl | rfl <;> rfl
private def bints : List (BTree × Val) := [(.scalar (.int32 3), .int 3), (.scalar (.int32 1), .int 1), (.scalar (.int32 3), .int 3)]
private theorem bints_are : bsonElemsAre setsEnv ⟨.Strict, []⟩ Samples.int32 bints := by
  intro e he
  simp only [bints, List.mem_cons, List.not_mem_nil, or_false] at he
  rcases he with rfl | rfl | rfl <;> rfl
private theorem bints_stored : Storable32 (.arr (bints.map Prod.fst)) :=
  ⟨⟨trivial, trivial, trivial, trivial⟩, ⟨show BScalar.valid (.int32 3) from by simp [BScalar.valid], show BScalar.valid (.int32 1) from by simp [BScalar.valid],
    show BScalar.valid (.int32 3) from by simp [BScalar.valid], trivial⟩, by decide +kernel⟩
example : ∃ r, yamlImport setsEnv ⟨.Strict, []⟩ (.seq (.sorted 0) Samples.int32) (.list [.int 2]) ([.streamStart, .docStart] ++ yevents (.arr (yints.map Prod.fst)) ++ .docEnd :: []) =
    .ok (.list r) ∧ .int 1 ∈ r := by
  obtain ⟨r, h, -, h2⟩ := C71_set_import_yaml setsEnv ⟨.Strict, []⟩ 0 Samples.int32 [.int 2] yints [] (setsEnv_less 0 (by decide)) (by simp) yints_are
  exact ⟨r, h, (h2 _).2 ⟨[.int 2, .int 3], [.int 3], rfl, by decide⟩⟩
example : ∃ r, bsonImport setsEnv ⟨.Strict, []⟩ (.seq (.multi 0) Samples.int32) (.list [.int 2]) (bdoc (.arr (bints.map Prod.fst)) ++ []) = .ok (.list r) ∧
    r.Perm [.int 2, .int 3, .int 1, .int 3] := by
  obtain ⟨r, h, -, h2, -⟩ := C72_multiset_import_bson setsEnv ⟨.Strict, []⟩ 0 Samples.int32 [.int 2] bints [] bints_stored (setsEnv_less 0 (by decide)) (by simp) bints_are
  exact ⟨r, h, h2⟩
example : ∃ r, bsonImport setsEnv ⟨.Strict, []⟩ (.seq (.hashed 2) Samples.int32) (.list [.int 2]) (bdoc (.arr (bints.map Prod.fst)) ++ []) = .ok (.list r) ∧ .int 1 ∈ r := by
  obtain ⟨r, h, -, h2⟩ := C73_unordered_set_import_bson setsEnv ⟨.Strict, []⟩ 2 Samples.int32 [.int 2] bints [] bints_stored setsEnv_eq (by simp) bints_are
  exact ⟨r, h, (h2 _).2 ⟨[.int 2, .int 3], [.int 3], rfl, by decide⟩⟩

end Thors.Props
