import Verif.Props.Elements
import Verif.Props.MemberWise
import Verif.Props.MapWise
import Verif.Props.Stream
/-
C134 (elements), C135 (members) and C137 (entries) for JSON in streams: what a part becomes is what a stream with just that part gives.
-/
namespace Thors.Props
open Thors Spec StrIn

/-- Reading a document from a stream: its meaning. -/
theorem stream_doc (env : Env) (cfg : Cfg) (conv : Bool) {v : JTree} {t : Bytes} (hd : JDoc codePair v t) {i : IStr} (hi : Ready i t) (ty : Ty) (old x : Val)
    (hs : cfg.strict = .Weak → v.skippable (jssem conv) = true) :
    (∃ i', jsonStreamImport env cfg conv ty old i = .ok (x, i')) ↔ imp (jssem conv) env cfg v ty old = .ok x := by
  obtain ⟨w1, tv, w2, hw1, hw2, hv, rfl⟩ := hd
  constructor
  · rintro ⟨i', e⟩
    exact imp_of_streamImport env cfg hw1 hv (.of (valueEnds_ws hw2)) hi.oks ty old x hs e
  · intro e
    obtain ⟨i', e, -⟩ := jsonStreamImport_doc env cfg hw1 hv (.of (valueEnds_ws hw2)) hi.oks ty old x e
    exact ⟨i', e⟩

theorem stream_just (t : Bytes) : Ready (IStr.ofBytes t) t := ⟨⟨rfl, rfl⟩, rfl, Nat.zero_le _, rfl⟩

private theorem map_ok_iff {α : Type} (f : α → Res Val) : ∀ (l : List α) (vs : List Val), l.map f = vs.map .ok ↔ vs.length = l.length ∧ ∀ p ∈ l.zip vs, f p.1 = .ok p.2
  | [], [] => by simp
  | [], _ :: _ => by simp
  | _ :: _, [] => by simp
  | a :: l, v :: vs => by
    simp only [List.map_cons, List.cons.injEq, map_ok_iff f l vs, List.length_cons, Nat.add_right_cancel_iff, List.zip_cons_cons, List.mem_cons, forall_eq_or_imp]
    exact ⟨fun ⟨h1, h2, h3⟩ => ⟨h2, h1, h3⟩, fun ⟨h1, h2, h3⟩ => ⟨h2, h1, h3⟩⟩

/-- C134, reading a stream: the array in the stream can be imported into a `std::vector` if and only if each element, in a stream of its own, can be imported into a fresh
element, and these are then appended in order. -/
theorem C134_import_stream (env : Env) (cfg : Cfg) (conv : Bool) (ty : Ty) (old : List Val) (x : Val) (es : List (JTree × Bytes)) (t : Bytes) (i : IStr)
    (he : ∀ e ∈ es, JDoc codePair e.1 e.2) (hdoc : JDoc codePair (.arr (es.map Prod.fst)) t) (hi : Ready i t)
    (hskip : cfg.strict = .Weak → ∀ e ∈ es, e.1.skippable (jssem conv) = true) :
    (∃ i', jsonStreamImport env cfg conv (.vec ty) (.list old) i = .ok (x, i')) ↔
      ∃ vs : List Val, vs.length = es.length ∧ (∀ p ∈ es.zip vs, ∃ j', jsonStreamImport env cfg conv ty (ty.default env) (IStr.ofBytes p.1.2) = .ok (p.2, j')) ∧ x = .list (old ++ vs) := by
  have hall : ∀ l : List (JTree × Bytes), (∀ e ∈ l, e.1.skippable (jssem conv) = true) → Tr.skippable.all (jssem conv) (l.map Prod.fst) = true := by
    intro l
    induction l with
    | nil => intro _; rfl
    | cons e l ih =>
      intro h
      rw [List.map_cons, Tr.skippable.all, h e (.head _), ih fun e he => h e (.tail _ he)]
      rfl
  rw [stream_doc env cfg conv hdoc hi _ _ _ fun h => by rw [Tr.skippable]; exact hall es (hskip h)]
  simp only [imp, Ty.vec, impArr]
  rw [impVec_iff, elems_eq, List.map_map, List.map_map]
  refine exists_congr fun vs => ?_
  rw [map_ok_iff, and_assoc]
  refine and_congr_right fun _ => and_congr_left fun _ => ?_
  refine forall_congr' fun p => forall_congr' fun hp => ?_
  have hm := (List.of_mem_zip (a := p.1) (b := p.2) hp).1
  exact (stream_doc env cfg conv (he _ hm) (stream_just _) ty _ _ fun h => hskip h _ hm).symm

/-- C135, reading a stream: each member of the class that the object names is what a stream with just the text of the value makes of the old member. -/
theorem C135_import_stream (env : Env) (cfg : Cfg) (conv : Bool) (n : Nat) (c : ClassDef) (hc : env.defs n = .cls c) (old x : Val) (es : List MemberText) (t : Bytes) (i i' : IStr)
    (he : ∀ e ∈ es, JDoc codePair e.value e.text) (hdoc : JDoc codePair (.obj (es.map fun e => (e.key, e.value))) t) (hi : Ready i t)
    (hskip : cfg.strict = .Weak → (Tr.obj (es.map fun e => (e.key, e.value)) : JTree).skippable (jssem conv) = true)
    (hn : (es.map fun e => e.key.val conv).Nodup) (hok : jsonStreamImport env cfg conv (.named n) old i = .ok (x, i'))
    (e : MemberText) (hm : e ∈ es) (s : StructDef.Slot) (hs : c.traits.find (e.key.val conv) = some s) :
    ∃ w v j', old.field s.path s.index = some w ∧ jsonStreamImport env cfg conv s.ty w (IStr.ofBytes e.text) = .ok (v, j') ∧ x.field s.path s.index = some v := by
  have hok := (stream_doc env cfg conv hdoc hi _ _ _ hskip).1 ⟨i', hok⟩
  simp only [imp, impObj, hc, members_eq] at hok
  rw [List.map_map] at hok
  obtain ⟨w, v, h1, h2, h3⟩ := impMembers_each (jssem conv) cfg c.traits _ [] old x (by rw [List.map_map]; exact hn) hok _ (List.mem_map_of_mem hm) s hs
  obtain ⟨w1, tv, w2, hw1, hw2, hv, et⟩ := he e hm
  obtain ⟨j', h4, -⟩ := jsonStreamImport_doc env cfg hw1 hv (.of (valueEnds_ws hw2)) (et ▸ stream_just e.text).oks s.ty w v h2
  exact ⟨w, v, j', h1, et ▸ h4, h3⟩

/-- C137, reading a stream: each entry the object names is what a stream with just the text of the value makes of the entry that was there (of a fresh object if there was none);
all other entries stay. -/
theorem C137_import_stream (env : Env) (cfg : Cfg) (conv : Bool) (t : Ty) (old : List (Bytes × Val)) (x : Val) (es : List MemberText) (text : Bytes) (i i' : IStr)
    (he : ∀ e ∈ es, JDoc codePair e.value e.text) (hdoc : JDoc codePair (.obj (es.map fun e => (e.key, e.value))) text) (hi : Ready i text)
    (hskip : cfg.strict = .Weak → (Tr.obj (es.map fun e => (e.key, e.value)) : JTree).skippable (jssem conv) = true)
    (hn : (es.map fun e => e.key.val conv).Nodup) (hok : jsonStreamImport env cfg conv (.smap t) (.dict old) i = .ok (x, i')) :
    ∃ new, x = .dict new ∧
      (∀ e ∈ es, ∃ v j', jsonStreamImport env cfg conv t ((firstOf (e.key.val conv) old).getD (t.default env)) (IStr.ofBytes e.text) = .ok (v, j') ∧
        firstOf (e.key.val conv) new = some v) ∧
      ∀ k, (∀ e ∈ es, e.key.val conv ≠ k) → firstOf k new = firstOf k old := by
  have hok := (stream_doc env cfg conv hdoc hi _ _ _ hskip).1 ⟨i', hok⟩
  simp only [imp, impObj, members_eq] at hok
  rw [List.map_map] at hok
  obtain ⟨new, rfl, h1, h2⟩ := impDict_each (jssem conv) env t _ old x (by rw [List.map_map]; exact hn) hok
  refine ⟨new, rfl, ?_, ?_⟩
  · intro e hm
    obtain ⟨v, e1, e2⟩ := h1 _ (List.mem_map_of_mem hm)
    rw [dictGet_first] at e1 e2
    have e1 : imp (jssem conv) env cfg e.value t ((firstOf (e.key.val conv) old).getD (t.default env)) = .ok v := e1
    obtain ⟨w1, tv, w2, hw1, hw2, hv, et⟩ := he e hm
    obtain ⟨j', h4, -⟩ := jsonStreamImport_doc env cfg hw1 hv (.of (valueEnds_ws hw2)) (et ▸ stream_just e.text).oks t _ v e1
    exact ⟨v, j', et ▸ h4, e2⟩
  · intro k hk
    have := h2 k (by
      intro m hm
      obtain ⟨e, he', rfl⟩ := List.mem_map.1 hm
      exact hk e he')
    rw [dictGet_first, dictGet_first] at this
    exact this

/-- non-vacuity: `[1,2]` into a vector that holds a 7. -/
example : ∃ i', jsonStreamImport Samples.env ⟨.Strict, []⟩ true (.vec Samples.int32) (.list [.int 7]) (IStr.ofBytes b!"[1,2]") = .ok (.list [.int 7, .int 1, .int 2], i') := by
  refine (C134_import_stream Samples.env ⟨.Strict, []⟩ true Samples.int32 [.int 7] _ [(Samples.num 1, b!"1"), (Samples.num 2, b!"2")] _ _ ?_
    (Samples.plain_doc (.arr [Samples.num 1, Samples.num 2]) (by decide)) (stream_just _) (fun h => by cases h)).2 ⟨[.int 1, .int 2], rfl, ?_, rfl⟩
  · intro e he
    simp only [List.mem_cons, List.not_mem_nil, or_false] at he
    rcases he with rfl | rfl <;> exact Samples.plain_doc _ (by decide)
  · intro p hp
    simp only [List.zip_cons_cons, List.zip_nil_right, List.mem_cons, List.not_mem_nil, or_false] at hp
    rcases hp with rfl | rfl
    · exact (stream_doc Samples.env ⟨.Strict, []⟩ true (Samples.plain_doc (Samples.num 1) (by decide)) (stream_just _) _ _ _ fun h => by cases h).2 rfl
    · exact (stream_doc Samples.env ⟨.Strict, []⟩ true (Samples.plain_doc (Samples.num 2) (by decide)) (stream_just _) _ _ _ fun h => by cases h).2 rfl
/-- `{"x":2,"why":[7]}` into a sample `Point` whose vector holds a 4: the vector becomes what the stream `[7]` makes of it. -/
example : ∃ x i' v j', jsonStreamImport Samples.env ⟨.Strict, []⟩ true (.named 1) old135 (IStr.ofBytes (Samples.text (.obj (members135.map fun e => (e.key, e.value))))) = .ok (x, i') ∧
    jsonStreamImport Samples.env ⟨.Strict, []⟩ true (.vec Samples.int32) (.list [.int 4]) (IStr.ofBytes b!"[7]") = .ok (v, j') ∧ x.field [] 1 = some v := by
  have hd : JDoc codePair (.obj (members135.map fun e => (e.key, e.value))) (Samples.text (.obj (members135.map fun e => (e.key, e.value)))) := Samples.plain_doc _ (by decide)
  obtain ⟨i', h⟩ := (stream_doc Samples.env ⟨.Strict, []⟩ true hd (stream_just _) (.named 1) old135 (.obj [.obj [] [.int 1]] [.int 2, .list [.int 4, .int 7]]) fun h => by cases h).2 rfl
  obtain ⟨w, v, j', h1, h2, h3⟩ := C135_import_stream Samples.env ⟨.Strict, []⟩ true 1 _ rfl old135 _ members135 _ _ i' members135_docs hd (stream_just _) (fun h => by cases h)
    (by decide) h _ (.tail _ (.head _)) ⟨[], 1, .vec Samples.int32⟩ rfl
  cases h1
  exact ⟨_, i', v, j', h, h2, h3⟩
/-- `{"x":2}` into a map that has entries `x` and `z`: the entry `z` stays. -/
example : ∃ new i', jsonStreamImport Samples.env ⟨.Strict, []⟩ true (.smap Samples.int32) (.dict [(b!"x", .int 9), (b!"z", .int 8)]) (IStr.ofBytes b!"{\"x\":2}") = .ok (.dict new, i') ∧
    firstOf b!"z" new = some (.int 8) := by
  have hd : JDoc codePair (.obj [(Samples.jstr b!"x", Samples.num 2)]) b!"{\"x\":2}" := Samples.plain_doc (.obj [(Samples.jstr b!"x", Samples.num 2)]) (by decide)
  obtain ⟨i', h⟩ := (stream_doc Samples.env ⟨.Strict, []⟩ true hd (stream_just _) (.smap Samples.int32) (.dict [(b!"x", .int 9), (b!"z", .int 8)]) (.dict [(b!"x", .int 2), (b!"z", .int 8)])
    fun h => by cases h).2 rfl
  obtain ⟨new, e, -, h2⟩ := C137_import_stream Samples.env ⟨.Strict, []⟩ true Samples.int32 _ _ [⟨Samples.jstr b!"x", Samples.num 2, b!"2"⟩] _ _ i'
    (by intro e he; simp only [List.mem_cons, List.not_mem_nil, or_false] at he; subst he; exact Samples.plain_doc (Samples.num 2) (by decide)) hd (stream_just _) (fun h => by cases h) (by decide) h
  exact ⟨new, i', e ▸ h, h2 b!"z" (by decide)⟩

end Thors.Props
