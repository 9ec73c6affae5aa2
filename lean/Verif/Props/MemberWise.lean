import Verif.Props.Elements
import Verif.Proofs.Alike
import Verif.Props.Samples
/-
C135: objects are read member by member.
-/
namespace Thors.Props
open Thors Thors.Spec StrIn

section
variable {K X : Type} (sem : ScalarSem K X) (cfg : Cfg)

/-- Places that the members do not name stay as they are. -/
private theorem impMembers_else (d : StructDef) (k : Bytes) (s : StructDef.Slot) (hs : d.find k = some s) : ∀ (ms : List (Mem K X)) (found : List Bytes) (old x : Val),
    (∀ m ∈ ms, sem.key m.key ≠ k) → impMembers sem cfg d ms found old = .ok x → x.field s.path s.index = old.field s.path s.index
  | [], found, old, x, _, h => by
    rw [impMembers] at h
    split at h
    · cases h
    · rw [Res.ok_inj h]
  | m :: ms, found, old, x, hk, h => by
    rw [impMembers] at h
    have hk' : ∀ n ∈ ms, sem.key n.key ≠ k := fun n hn => hk n (.tail _ hn)
    cases hf : d.find (sem.key m.key) with
    | none =>
      rw [hf] at h
      dsimp only at h
      split at h
      · cases h
      · split at h
        · cases h
        · exact impMembers_else d k s hs ms _ _ x hk' h
    | some s' =>
      rw [hf] at h
      dsimp only at h
      cases hw : old.field s'.path s'.index with
      | none => rw [hw] at h; cases h
      | some w =>
        rw [hw] at h
        obtain ⟨v, -, h⟩ := Res.bind_eq_ok.mp h
        rw [impMembers_else d k s hs ms _ _ x hk' h]
        exact field_set_ne v _ _ _ _ old (find_ne hf hs (hk m (.head _)))

/-- Each member is imported into the place it names, which holds what it held before. -/
theorem impMembers_each (d : StructDef) : ∀ (ms : List (Mem K X)) (found : List Bytes) (old x : Val), (ms.map fun m => sem.key m.key).Nodup →
    impMembers sem cfg d ms found old = .ok x → ∀ m ∈ ms, ∀ s, d.find (sem.key m.key) = some s →
      ∃ w v, old.field s.path s.index = some w ∧ m.imp s.ty w = .ok v ∧ x.field s.path s.index = some v
  | [], _, _, _, _, _, m, hm, _, _ => by cases hm
  | m :: ms, found, old, x, hn, h, n, hm, s, hs => by
    rw [List.map_cons, List.nodup_cons] at hn
    have hk : ∀ n ∈ ms, sem.key n.key ≠ sem.key m.key := fun n hn' e => hn.1 (e ▸ List.mem_map_of_mem (f := fun m => sem.key m.key) hn')
    rw [impMembers] at h
    cases hf : d.find (sem.key m.key) with
    | none =>
      rw [hf] at h
      dsimp only at h
      split at h
      · cases h
      · split at h
        · cases h
        · rcases List.mem_cons.1 hm with rfl | hm
          · rw [hs] at hf; cases hf
          · exact impMembers_each d ms _ _ x hn.2 h n hm s hs
    | some s' =>
      rw [hf] at h
      dsimp only at h
      cases hw : old.field s'.path s'.index with
      | none => rw [hw] at h; cases h
      | some w =>
        rw [hw] at h
        obtain ⟨v, hv, h⟩ := Res.bind_eq_ok.mp h
        rcases List.mem_cons.1 hm with rfl | hm
        · cases hf.symm.trans hs
          exact ⟨w, v, hw, hv, by rw [impMembers_else sem cfg d _ _ hs ms _ _ x hk h]; exact field_set_eq v s.path hw⟩
        · obtain ⟨w', v', h1, h2, h3⟩ := impMembers_each d ms _ _ x hn.2 h n hm s hs
          rw [field_set_ne v _ _ _ _ old (find_ne hf hs (fun e => hk n hm e.symm))] at h1
          exact ⟨w', v', h1, h2, h3⟩

/-- If every member can be imported, all can. -/
private theorem impMembers_all (hx : cfg.strict ≠ .Exact) (d : StructDef) : ∀ (ms : List (Mem K X)) (found : List Bytes) (old : Val), (ms.map fun m => sem.key m.key).Nodup →
    (∀ m ∈ ms, ∃ s w v, d.find (sem.key m.key) = some s ∧ old.field s.path s.index = some w ∧ m.imp s.ty w = .ok v) →
    ∃ x, impMembers sem cfg d ms found old = .ok x
  | [], found, old, _, _ => ⟨old, by rw [impMembers, if_neg fun h => hx h.1]⟩
  | m :: ms, found, old, hn, h => by
    rw [List.map_cons, List.nodup_cons] at hn
    obtain ⟨s, w, v, h1, h2, h3⟩ := h m (.head _)
    obtain ⟨x, hx'⟩ := impMembers_all hx d ms (sem.key m.key :: found) (old.setField s.path s.index v) hn.2 fun n hm => by
      obtain ⟨s', w', v', k1, k2, k3⟩ := h n (.tail _ hm)
      refine ⟨s', w', v', k1, ?_, k3⟩
      rw [field_set_ne v _ _ _ _ old (find_ne h1 k1 fun e => hn.1 (e ▸ List.mem_map_of_mem (f := fun m => sem.key m.key) hm))]
      exact k2
    refine ⟨x, ?_⟩
    rw [impMembers, h1]
    dsimp only
    rw [h2]
    dsimp only
    rw [h3]
    exact hx'

end

/-- A member in a document: its key, its value, and a text of the value. -/
structure MemberText where
  key : JStr
  value : JTree
  text : Bytes

/-- C135. An object is imported into a class: each member of the class that the object names is what the text of the value, as a document by itself, makes of the old
member. -/
theorem C135_import (env : Env) (cfg : Cfg) (conv : Bool) (i : Nat) (c : ClassDef) (hc : env.defs i = .cls c) (old x : Val) (es : List MemberText) (t : Bytes)
    (he : ∀ e ∈ es, JDoc codePair e.value e.text) (hdoc : JDoc codePair (.obj (es.map fun e => (e.key, e.value))) t)
    (hskip : cfg.strict = .Weak → (Tr.obj (es.map fun e => (e.key, e.value)) : JTree).skippable (jsem conv) = true)
    (hn : (es.map fun e => e.key.val conv).Nodup) (hok : jsonImport env cfg conv (.named i) old t = .ok x)
    (e : MemberText) (hm : e ∈ es) (s : StructDef.Slot) (hs : c.traits.find (e.key.val conv) = some s) :
    ∃ w v, old.field s.path s.index = some w ∧ jsonImport env cfg conv s.ty w e.text = .ok v ∧ x.field s.path s.index = some v := by
  rw [jsonImport_doc env cfg hdoc _ _ (.inl hskip)] at hok
  simp only [imp, impObj, hc, members_eq] at hok
  rw [List.map_map] at hok
  obtain ⟨w, v, h1, h2, h3⟩ := impMembers_each (jsem conv) cfg c.traits _ [] old x (by rw [List.map_map]; exact hn) hok _ (List.mem_map_of_mem hm) s hs
  refine ⟨w, v, h1, ?_, h3⟩
  rw [jsonImport_doc env cfg (he e hm) _ _ (.inr (by rw [show imp _ _ _ e.value _ _ = _ from h2]; simp))]
  exact h2

/-- C135, the other direction: if each of these documents can be imported into the old member, the object can (in Exact mode members may be missing, C18). -/
theorem C135_succeeds (env : Env) (cfg : Cfg) (hx : cfg.strict ≠ .Exact) (conv : Bool) (i : Nat) (c : ClassDef) (hc : env.defs i = .cls c) (old : Val) (es : List MemberText)
    (t : Bytes) (he : ∀ e ∈ es, JDoc codePair e.value e.text) (hdoc : JDoc codePair (.obj (es.map fun e => (e.key, e.value))) t)
    (hskip : cfg.strict = .Weak → ∀ e ∈ es, e.value.skippable (jsem conv) = true) (hn : (es.map fun e => e.key.val conv).Nodup)
    (hall : ∀ e ∈ es, ∃ s w v, c.traits.find (e.key.val conv) = some s ∧ old.field s.path s.index = some w ∧ jsonImport env cfg conv s.ty w e.text = .ok v) :
    ∃ x, jsonImport env cfg conv (.named i) old t = .ok x := by
  have key : ∃ x, imp (jsem conv) env cfg (.obj (es.map fun e => (e.key, e.value))) (.named i) old = .ok x := by
    simp only [imp, impObj, hc, members_eq]
    rw [List.map_map]
    refine impMembers_all (jsem conv) cfg hx c.traits _ [] old (by rw [List.map_map]; exact hn) ?_
    intro m hm
    obtain ⟨e, he', rfl⟩ := List.mem_map.1 hm
    obtain ⟨s, w, v, h1, h2, h3⟩ := hall e he'
    refine ⟨s, w, v, h1, h2, ?_⟩
    rw [jsonImport_doc env cfg (he e he') _ _ (.inl fun h => hskip h e he')] at h3
    exact h3
  obtain ⟨x, h⟩ := key
  exact ⟨x, by rw [jsonImport_doc env cfg hdoc _ _ (.inr (by rw [h]; simp))]; exact h⟩

/-- C135, reading BSON: a member that holds a document or an array is what that document, by itself, makes of the old member. -/
theorem C135_import_bson (env : Env) (cfg : Cfg) (i : Nat) (c : ClassDef) (hc : env.defs i = .cls c) (old x : Val) (es : List (Bytes × BTree)) (rest : Bytes)
    (hdoc : Storable32 (.obj es)) (hn : (es.map Prod.fst).Nodup) (hok : bsonImport env cfg (.named i) old (bdoc (.obj es) ++ rest) = .ok x)
    (e : Bytes × BTree) (hm : e ∈ es) (he : Storable32 e.2) (s : StructDef.Slot) (hs : c.traits.find e.1 = some s) (hb : bsonBase env s.ty = BsonP.rootKind e.2) :
    ∃ w v, old.field s.path s.index = some w ∧ bsonImport env cfg s.ty w (bdoc e.2 ++ rest) = .ok v ∧ x.field s.path s.index = some v := by
  rw [bsonImport_doc env cfg _ hdoc rest _ (by simp [bsonBase, hc, BsonP.rootKind])] at hok
  simp only [imp, impObj, hc, members_eq] at hok
  obtain ⟨w, v, h1, h2, h3⟩ := impMembers_each bsem cfg c.traits _ [] old x (by rw [List.map_map]; exact hn) hok _ (List.mem_map_of_mem hm) s hs
  refine ⟨w, v, h1, ?_, h3⟩
  rw [bsonImport_doc env cfg _ he rest _ hb]
  exact h2

/-- C135, reading YAML. -/
theorem C135_import_yaml (env : Env) (cfg : Cfg) (i : Nat) (c : ClassDef) (hc : env.defs i = .cls c) (old x : Val) (es : List (Bytes × YTree)) (rest : List YEv)
    (hn : (es.map Prod.fst).Nodup) (hok : yamlImport env cfg (.named i) old ([.streamStart, .docStart] ++ yevents (.obj es) ++ .docEnd :: rest) = .ok x)
    (e : Bytes × YTree) (hm : e ∈ es) (s : StructDef.Slot) (hs : c.traits.find e.1 = some s) :
    ∃ w v, old.field s.path s.index = some w ∧ yamlImport env cfg s.ty w ([.streamStart, .docStart] ++ yevents e.2 ++ .docEnd :: rest) = .ok v ∧
      x.field s.path s.index = some v := by
  rw [yamlImport_doc] at hok
  simp only [imp, impObj, hc, members_eq] at hok
  obtain ⟨w, v, h1, h2, h3⟩ := impMembers_each ysem cfg c.traits _ [] old x (by rw [List.map_map]; exact hn) hok _ (List.mem_map_of_mem hm) s hs
  refine ⟨w, v, h1, ?_, h3⟩
  rw [yamlImport_doc]
  exact h2

/-- non-vacuity: `{"x":2,"why":[7]}` into a sample `Point` whose vector holds a 4. -/
def members135 : List MemberText := [⟨Samples.jstr b!"x", Samples.num 2, Samples.text (Samples.num 2)⟩,
  ⟨Samples.jstr b!"why", .arr [Samples.num 7], Samples.text (.arr [Samples.num 7])⟩]
def old135 : Val := .obj [.obj [] [.int 1]] [.int 0, .list [.int 4]]

theorem members135_docs : ∀ e ∈ members135, JDoc codePair e.value e.text := by
  intro e he
  simp only [members135, List.mem_cons, List.not_mem_nil, or_false] at he
  rcases he with rfl | rfl <;> exact Samples.plain_doc _ (by decide)

example : ∃ x, jsonImport Samples.env ⟨.Strict, []⟩ true (.named 1) old135 (Samples.text (.obj (members135.map fun e => (e.key, e.value)))) = .ok x := by
  refine C135_succeeds Samples.env ⟨.Strict, []⟩ (by simp) true 1 _ rfl old135 members135 _ members135_docs (Samples.plain_doc _ (by decide)) (fun h => by cases h) (by decide) ?_
  intro e he
  have hd := members135_docs e he
  simp only [members135, List.mem_cons, List.not_mem_nil, or_false] at he
  rcases he with rfl | rfl
  · exact ⟨_, _, .int 2, rfl, rfl, by rw [jsonImport_doc _ _ hd _ _ (.inl fun h => by cases h)]; rfl⟩
  · exact ⟨_, _, .list [.int 4, .int 7], rfl, rfl, by rw [jsonImport_doc _ _ hd _ _ (.inl fun h => by cases h)]; rfl⟩
example (x : Val) (h : jsonImport Samples.env ⟨.Strict, []⟩ true (.named 1) old135 (Samples.text (.obj (members135.map fun e => (e.key, e.value)))) = .ok x) :
    x.field [] 1 = some (.list [.int 4, .int 7]) := by
  obtain ⟨w, v, h1, h2, h3⟩ := C135_import Samples.env ⟨.Strict, []⟩ true 1 _ rfl old135 x members135 _ members135_docs (Samples.plain_doc _ (by decide)) (fun h => by cases h)
    (by decide) h _ (.tail _ (.head _)) ⟨[], 1, .vec Samples.int32⟩ rfl
  cases h1
  rw [jsonImport_doc _ _ (members135_docs _ (.tail _ (.head _))) _ _ (.inl fun h => by cases h)] at h2
  rw [h3, ← Res.ok_inj ((show imp (jsem true) Samples.env ⟨.Strict, []⟩ _ _ _ = .ok (.list [.int 4, .int 7]) from rfl).symm.trans h2)]
/-- non-vacuity for YAML: `{x: 2, why: [7]}` into the same object. -/
example : yamlImport Samples.env ⟨.Strict, []⟩ (.named 1) old135 ([.streamStart, .docStart] ++ yevents (.obj [(b!"x", .scalar b!"2"), (b!"why", .arr [.scalar b!"7"])]) ++
    .docEnd :: [.streamEnd]) = .ok (.obj [.obj [] [.int 1]] [.int 2, .list [.int 4, .int 7]]) := by
  rw [yamlImport_doc]
  rfl
/-- And for BSON. -/
theorem stored135 : Storable32 (.obj [(b!"x", .scalar (.int32 2)), (b!"why", .arr [.scalar (.int32 7)])]) :=
  ⟨⟨by decide, trivial, by decide, ⟨trivial, trivial⟩, trivial⟩, ⟨show BScalar.valid (.int32 2) from by simp [BScalar.valid], ⟨show BScalar.valid (.int32 7) from by simp [BScalar.valid], trivial⟩, trivial⟩, by decide +kernel⟩
example : bsonImport Samples.env ⟨.Strict, []⟩ (.named 1) old135 (bdoc (.obj [(b!"x", .scalar (.int32 2)), (b!"why", .arr [.scalar (.int32 7)])]) ++ []) =
    .ok (.obj [.obj [] [.int 1]] [.int 2, .list [.int 4, .int 7]]) := by
  rw [bsonImport_doc _ _ _ stored135 _ _ rfl]
  rfl

end Thors.Props
