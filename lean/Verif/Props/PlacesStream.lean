import Verif.Props.PartsStream
import Verif.Props.Fixed
import Verif.Props.Wrapped
/-
C138 (containers of a fixed size) and C139 (pointers) for JSON in streams.
-/
namespace Thors.Props
open Thors Spec StrIn

/-- C138, reading a stream: element number j is what a stream with just its text makes of the j-th place; places without an element stay as they were. -/
theorem C138_import_stream (env : Env) (cfg : Cfg) (conv : Bool) (ty : Ty) (tyAt : Nat → Option Ty) (hty : ElementTypes env ty tyAt) (old : List Val) (x : Val)
    (es : List (JTree × Bytes)) (t : Bytes) (i i' : IStr) (he : ∀ e ∈ es, JDoc codePair e.1 e.2) (hdoc : JDoc codePair (.arr (es.map Prod.fst)) t) (hi : Ready i t)
    (hskip : cfg.strict = .Weak → (Tr.arr (es.map Prod.fst) : JTree).skippable (jssem conv) = true)
    (hok : jsonStreamImport env cfg conv ty (.list old) i = .ok (x, i')) :
    ∃ new, x = .list new ∧ new.length = old.length ∧
      (∀ j e, es[j]? = some e → ∃ t w v k, tyAt j = some t ∧ old[j]? = some w ∧ jsonStreamImport env cfg conv t w (IStr.ofBytes e.2) = .ok (v, k) ∧ new[j]? = some v) ∧
      ∀ j, es.length ≤ j → new[j]? = old[j]? := by
  have hok := (stream_doc env cfg conv hdoc hi _ _ _ hskip).1 ⟨i', hok⟩
  simp only [imp] at hok
  rw [impArr_fix hty, elems_eq, List.map_map] at hok
  obtain ⟨new, rfl, hl, h1, h2⟩ := impFix_each tyAt _ 0 old x hok
  refine ⟨new, rfl, hl, ?_, fun j hj => h2 j (.inr (by simpa using hj))⟩
  intro j e hj
  obtain ⟨t', w, v, e1, e2, e3, e4⟩ := h1 j _ (by rw [List.getElem?_map, hj]; rfl)
  rw [Nat.zero_add] at e1 e2 e4
  have e3 : imp (jssem conv) env cfg e.1 t' w = .ok v := e3
  obtain ⟨w1, tv, w2, hw1, hw2, hv, et⟩ := he e (List.mem_of_getElem? hj)
  obtain ⟨k, h4, -⟩ := jsonStreamImport_doc env cfg hw1 hv (.of (valueEnds_ws hw2)) (et ▸ stream_just e.2).oks t' w v e3
  exact ⟨t', w, v, k, e1, e2, et ▸ h4, e4⟩

/-- C139 for pointers, reading a stream: a document other than `null` gives a pointer to what it gives when it is read into a fresh object. -/
theorem C139_pointer_stream (env : Env) (cfg : Cfg) (conv : Bool) (t : Ty) (old x : Val) (v : JTree) (text : Bytes) (hd : JDoc codePair v text) (hv : v ≠ .scalar .null)
    (i : IStr) (hi : Ready i text) (hskip : cfg.strict = .Weak → v.skippable (jssem conv) = true) :
    (∃ i', jsonStreamImport env cfg conv (.uptr t) old i = .ok (x, i')) ↔ ∃ y i', jsonStreamImport env cfg conv t (t.default env) i = .ok (y, i') ∧ x = .ptr y := by
  rw [stream_doc env cfg conv hd hi _ _ _ hskip, imp_uptr_put _ _ _ _ (fun x hx => by
    subst hx
    cases x with
    | null => exact absurd rfl hv
    | _ => rfl)]
  constructor
  · intro h
    cases e : imp (jssem conv) env cfg v t (t.default env) with
    | ok y =>
      rw [e] at h
      cases h
      obtain ⟨i', h'⟩ := (stream_doc env cfg conv hd hi _ _ _ hskip).2 e
      exact ⟨y, i', h', rfl⟩
    | _ => rw [e] at h; cases h
  · rintro ⟨y, i', h, rfl⟩
    rw [(stream_doc env cfg conv hd hi _ _ _ hskip).1 ⟨i', h⟩]
    rfl

/-- The document `null` in a stream gives a null pointer. -/
theorem C139_null_stream (env : Env) (cfg : Cfg) (conv : Bool) (t : Ty) (old : Val) (text : Bytes) (hd : JDoc codePair (.scalar .null) text) (i : IStr) (hi : Ready i text) :
    ∃ i', jsonStreamImport env cfg conv (.uptr t) old i = .ok (.null, i') :=
  (stream_doc env cfg conv hd hi _ _ _ fun _ => by rw [Tr.skippable]; rfl).2 (by simp [imp, impScalar, jssem])

/-- non-vacuity: `[7]` into a tuple of a number and a bool: the bool stays; `[1]` into a pointer to a vector that holds a 4: the new vector holds the 1 only; `null`. -/
example : ∃ new i', jsonStreamImport Samples.env ⟨.Strict, []⟩ true (.named 3) (.list [.int 0, .bool true]) (IStr.ofBytes b!"[7]") = .ok (.list new, i') ∧ new[1]? = some (.bool true) := by
  have hd : JDoc codePair (.arr [Samples.num 7]) b!"[7]" := Samples.plain_doc (.arr [Samples.num 7]) (by decide)
  obtain ⟨i', h⟩ := (stream_doc Samples.env ⟨.Strict, []⟩ true hd (stream_just _) (.named 3) (.list [.int 0, .bool true]) (.list [.int 7, .bool true]) fun h => by cases h).2 rfl
  obtain ⟨new, e, -, -, h2⟩ := C138_import_stream Samples.env ⟨.Strict, []⟩ true (.named 3) _ ⟨[Samples.int32, .bool], rfl, fun _ => rfl⟩ [.int 0, .bool true] _
    [(Samples.num 7, b!"7")] _ _ i' (by
      intro e he
      cases List.mem_singleton.1 he
      exact Samples.plain_doc (Samples.num 7) (by decide)) hd (stream_just _) (fun h => by cases h) h
  exact ⟨new, i', e ▸ h, h2 1 (Nat.le_refl 1)⟩
example : ∃ i', jsonStreamImport Samples.env ⟨.Strict, []⟩ true (.uptr (.vec Samples.int32)) (.ptr (.list [.int 4])) (IStr.ofBytes b!"[1]") = .ok (.ptr (.list [.int 1]), i') := by
  have hd : JDoc codePair (.arr [Samples.num 1]) b!"[1]" := Samples.plain_doc (.arr [Samples.num 1]) (by decide)
  obtain ⟨i', h⟩ := (stream_doc Samples.env ⟨.Strict, []⟩ true hd (stream_just _) (.vec Samples.int32) (.list []) (.list [.int 1]) fun h => by cases h).2 rfl
  exact (C139_pointer_stream Samples.env ⟨.Strict, []⟩ true _ _ _ _ _ hd (by simp) _ (stream_just _) (fun h => by cases h)).2 ⟨_, i', h, rfl⟩
example : ∃ i', jsonStreamImport Samples.env ⟨.Weak, []⟩ true (.uptr Samples.int32) (.ptr (.int 4)) (IStr.ofBytes b!"null") = .ok (.null, i') :=
  C139_null_stream Samples.env ⟨.Weak, []⟩ true _ _ b!"null" (Samples.plain_doc (.scalar .null) (by decide)) _ (stream_just _)

end Thors.Props
