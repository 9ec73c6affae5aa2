import Verif.Props.MemberWise
import Verif.Props.Containers
import Verif.Proofs.Touch
/-
C137: maps are read entry by entry.
-/
namespace Thors.Props
open Thors Thors.Spec StrIn

section
variable {K X : Type} (sem : ScalarSem K X) (env : Env) (t : Ty)

/-- What importing members into a sorted map does to each key. -/
theorem impDict_each : ∀ (ms : List (Mem K X)) (old : List (Bytes × Val)) (x : Val), (ms.map fun m => sem.key m.key).Nodup →
    impDict sem env .sorted t ms old = .ok x → ∃ new, x = .dict new ∧
      (∀ m ∈ ms, ∃ v, m.imp t ((dictGet (sem.key m.key) old).getD (t.default env)) = .ok v ∧ dictGet (sem.key m.key) new = some v) ∧
      ∀ k, (∀ m ∈ ms, sem.key m.key ≠ k) → dictGet k new = dictGet k old
  | [], old, x, _, h => by
    rw [impDict] at h
    cases h
    exact ⟨old, rfl, by simp, fun _ _ => rfl⟩
  | m :: ms, old, x, hn, h => by
    rw [List.map_cons, List.nodup_cons] at hn
    have hk : ∀ n ∈ ms, sem.key n.key ≠ sem.key m.key := fun n hn' e => hn.1 (e ▸ List.mem_map_of_mem (f := fun m => sem.key m.key) hn')
    rw [impDict] at h
    obtain ⟨v, hv, h⟩ := Res.bind_eq_ok.mp h
    obtain ⟨new, rfl, h1, h2⟩ := impDict_each ms _ x hn.2 h
    refine ⟨new, rfl, ?_, ?_⟩
    · intro n hm
      rcases List.mem_cons.1 hm with rfl | hm
      · exact ⟨v, hv, by rw [h2 _ hk, dictGet_set_eq]⟩
      · obtain ⟨w, e1, e2⟩ := h1 n hm
        rw [dictGet_set_ne v (fun e => hk n hm e.symm)] at e1
        exact ⟨w, e1, e2⟩
    · intro k hne
      rw [h2 k fun n hm => hne n (.tail _ hm), dictGet_set_ne v (hne m (.head _))]

/-- If every member can be imported, all can. -/
private theorem impDict_all : ∀ (ms : List (Mem K X)) (old : List (Bytes × Val)), (ms.map fun m => sem.key m.key).Nodup →
    (∀ m ∈ ms, ∃ v, m.imp t ((dictGet (sem.key m.key) old).getD (t.default env)) = .ok v) → ∃ x, impDict sem env .sorted t ms old = .ok x
  | [], old, _, _ => ⟨_, by rw [impDict]⟩
  | m :: ms, old, hn, h => by
    rw [List.map_cons, List.nodup_cons] at hn
    obtain ⟨v, hv⟩ := h m (.head _)
    obtain ⟨x, hx⟩ := impDict_all ms (dictSet (sem.key m.key) v old) hn.2 fun n hm => by
      obtain ⟨w, hw⟩ := h n (.tail _ hm)
      have hne : sem.key m.key ≠ sem.key n.key := fun e => hn.1 (e ▸ List.mem_map_of_mem (f := fun m => sem.key m.key) hm)
      rw [dictGet_set_ne v hne]
      exact ⟨w, hw⟩
    refine ⟨x, ?_⟩
    rw [impDict, hv]
    exact hx

end

/-- C137. An object is imported into a `std::map` with strings for keys: each entry it names is what the text of the value, as a document by itself, makes of the entry that
was there (of a fresh object if there was none); all other entries stay. -/
theorem C137_import (env : Env) (cfg : Cfg) (conv : Bool) (t : Ty) (old : List (Bytes × Val)) (x : Val) (es : List MemberText) (text : Bytes)
    (he : ∀ e ∈ es, JDoc codePair e.value e.text) (hdoc : JDoc codePair (.obj (es.map fun e => (e.key, e.value))) text)
    (hskip : cfg.strict = .Weak → (Tr.obj (es.map fun e => (e.key, e.value)) : JTree).skippable (jsem conv) = true)
    (hn : (es.map fun e => e.key.val conv).Nodup) (hok : jsonImport env cfg conv (.smap t) (.dict old) text = .ok x) :
    ∃ new, x = .dict new ∧
      (∀ e ∈ es, ∃ v, jsonImport env cfg conv t ((firstOf (e.key.val conv) old).getD (t.default env)) e.text = .ok v ∧ firstOf (e.key.val conv) new = some v) ∧
      ∀ k, (∀ e ∈ es, e.key.val conv ≠ k) → firstOf k new = firstOf k old := by
  rw [jsonImport_doc env cfg hdoc _ _ (.inl hskip)] at hok
  simp only [imp, impObj, members_eq] at hok
  rw [List.map_map] at hok
  obtain ⟨new, rfl, h1, h2⟩ := impDict_each (jsem conv) env t _ old x (by rw [List.map_map]; exact hn) hok
  refine ⟨new, rfl, ?_, ?_⟩
  · intro e hm
    obtain ⟨v, e1, e2⟩ := h1 _ (List.mem_map_of_mem hm)
    rw [dictGet_first] at e1 e2
    have e1 : imp (jsem conv) env cfg e.value t ((firstOf (e.key.val conv) old).getD (t.default env)) = .ok v := e1
    refine ⟨v, ?_, e2⟩
    rw [jsonImport_doc env cfg (he e hm) _ _ (.inr (by rw [e1]; simp))]
    exact e1
  · intro k hk
    rw [← dictGet_first, ← dictGet_first]
    refine h2 k fun m hm => ?_
    obtain ⟨e, he', rfl⟩ := List.mem_map.1 hm
    exact hk e he'

/-- C137, the other direction: if each of these documents can be imported, the object can. -/
theorem C137_succeeds (env : Env) (cfg : Cfg) (conv : Bool) (t : Ty) (old : List (Bytes × Val)) (es : List MemberText) (text : Bytes)
    (he : ∀ e ∈ es, JDoc codePair e.value e.text) (hdoc : JDoc codePair (.obj (es.map fun e => (e.key, e.value))) text)
    (hskip : cfg.strict = .Weak → ∀ e ∈ es, e.value.skippable (jsem conv) = true) (hn : (es.map fun e => e.key.val conv).Nodup)
    (hall : ∀ e ∈ es, ∃ v, jsonImport env cfg conv t ((firstOf (e.key.val conv) old).getD (t.default env)) e.text = .ok v) :
    ∃ x, jsonImport env cfg conv (.smap t) (.dict old) text = .ok x := by
  have key : ∃ x, imp (jsem conv) env cfg (.obj (es.map fun e => (e.key, e.value))) (.smap t) (.dict old) = .ok x := by
    simp only [imp, impObj, members_eq]
    rw [List.map_map]
    refine impDict_all (jsem conv) env t _ old (by rw [List.map_map]; exact hn) ?_
    intro m hm
    obtain ⟨e, he', rfl⟩ := List.mem_map.1 hm
    obtain ⟨v, h3⟩ := hall e he'
    refine ⟨v, ?_⟩
    rw [jsonImport_doc env cfg (he e he') _ _ (.inl fun h => hskip h e he')] at h3
    rw [dictGet_first]
    exact h3
  obtain ⟨x, h⟩ := key
  exact ⟨x, by rw [jsonImport_doc env cfg hdoc _ _ (.inr (by rw [h]; simp))]; exact h⟩

/-- C137, reading YAML. -/
theorem C137_import_yaml (env : Env) (cfg : Cfg) (t : Ty) (old : List (Bytes × Val)) (x : Val) (es : List (Bytes × YTree)) (rest : List YEv)
    (hn : (es.map Prod.fst).Nodup) (hok : yamlImport env cfg (.smap t) (.dict old) ([.streamStart, .docStart] ++ yevents (.obj es) ++ .docEnd :: rest) = .ok x) :
    ∃ new, x = .dict new ∧
      (∀ e ∈ es, ∃ v, yamlImport env cfg t ((firstOf e.1 old).getD (t.default env)) ([.streamStart, .docStart] ++ yevents e.2 ++ .docEnd :: rest) = .ok v ∧
        firstOf e.1 new = some v) ∧
      ∀ k, (∀ e ∈ es, e.1 ≠ k) → firstOf k new = firstOf k old := by
  rw [yamlImport_doc] at hok
  simp only [imp, impObj, members_eq] at hok
  obtain ⟨new, rfl, h1, h2⟩ := impDict_each ysem env t _ old x (by rw [List.map_map]; exact hn) hok
  refine ⟨new, rfl, ?_, ?_⟩
  · intro e hm
    obtain ⟨v, e1, e2⟩ := h1 _ (List.mem_map_of_mem hm)
    rw [dictGet_first] at e1 e2
    exact ⟨v, by rw [yamlImport_doc]; exact e1, e2⟩
  · intro k hk
    rw [← dictGet_first, ← dictGet_first]
    refine h2 k fun m hm => ?_
    obtain ⟨e, he', rfl⟩ := List.mem_map.1 hm
    exact hk e he'

/-- non-vacuity: `{"x":[],"why":[7]}` into a map that holds `why` (with a 4) and `z`. -/
def entries137 : List MemberText := [⟨Samples.jstr b!"x", .arr [], Samples.text (.arr [])⟩, ⟨Samples.jstr b!"why", .arr [Samples.num 7], Samples.text (.arr [Samples.num 7])⟩]
def old137 : List (Bytes × Val) := [(b!"why", .list [.int 4]), (b!"z", .list [])]

theorem entries137_docs : ∀ e ∈ entries137, JDoc codePair e.value e.text := by
  intro e he
  simp only [entries137, List.mem_cons, List.not_mem_nil, or_false] at he
  rcases he with rfl | rfl <;> exact Samples.plain_doc _ (by decide)

example : ∃ x, jsonImport Samples.env ⟨.Strict, []⟩ true (.smap (.vec Samples.int32)) (.dict old137) (Samples.text (.obj (entries137.map fun e => (e.key, e.value)))) = .ok x := by
  refine C137_succeeds Samples.env ⟨.Strict, []⟩ true _ old137 entries137 _ entries137_docs (Samples.plain_doc _ (by decide)) (fun h => by cases h) (by decide) ?_
  intro e he
  have hd := entries137_docs e he
  simp only [entries137, List.mem_cons, List.not_mem_nil, or_false] at he
  rcases he with rfl | rfl
  · exact ⟨.list [], by rw [jsonImport_doc _ _ hd _ _ (.inl fun h => by cases h)]; rfl⟩
  · exact ⟨.list [.int 4, .int 7], by rw [jsonImport_doc _ _ hd _ _ (.inl fun h => by cases h)]; rfl⟩
example (x : Val) (h : jsonImport Samples.env ⟨.Strict, []⟩ true (.smap (.vec Samples.int32)) (.dict old137) (Samples.text (.obj (entries137.map fun e => (e.key, e.value)))) = .ok x) :
    ∃ new, x = .dict new ∧ firstOf b!"z" new = some (.list []) := by
  obtain ⟨new, e, -, h2⟩ := C137_import Samples.env ⟨.Strict, []⟩ true _ old137 x entries137 _ entries137_docs (Samples.plain_doc _ (by decide)) (fun h => by cases h) (by decide) h
  exact ⟨new, e, by rw [h2 b!"z" (by decide)]; rfl⟩
example (env : Env) : yamlImport env ⟨.Strict, []⟩ (.smap .bool) (.dict [(b!"b", .bool false)]) ([.streamStart, .docStart] ++ yevents (.obj [(b!"a", .scalar b!"true"), (b!"b", .scalar b!"true")]) ++
    .docEnd :: [.streamEnd]) = .ok (.dict [(b!"a", .bool true), (b!"b", .bool true)]) := by
  rw [yamlImport_doc]
  rfl

end Thors.Props
