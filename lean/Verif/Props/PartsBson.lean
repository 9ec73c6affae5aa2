import Verif.Props.MapWise
import Verif.Props.Fixed
/-
C137 (entries of maps) and C138 (places of fixed containers) for BSON.
-/
namespace Thors.Props
open Thors Spec

/-- C137, reading BSON: an entry that holds a document or an array is what that document, by itself, makes of the entry that was there (of a fresh object if there was none);
entries the document does not name stay. -/
theorem C137_import_bson (env : Env) (cfg : Cfg) (t : Ty) (old : List (Bytes × Val)) (x : Val) (es : List (Bytes × BTree)) (rest : Bytes)
    (hdoc : Storable32 (.obj es)) (hn : (es.map Prod.fst).Nodup) (hok : bsonImport env cfg (.smap t) (.dict old) (bdoc (.obj es) ++ rest) = .ok x) :
    ∃ new, x = .dict new ∧
      (∀ e ∈ es, Storable32 e.2 → bsonBase env t = BsonP.rootKind e.2 →
        ∃ v, bsonImport env cfg t ((firstOf e.1 old).getD (t.default env)) (bdoc e.2 ++ rest) = .ok v ∧ firstOf e.1 new = some v) ∧
      ∀ k, (∀ e ∈ es, e.1 ≠ k) → firstOf k new = firstOf k old := by
  rw [bsonImport_doc env cfg _ hdoc rest _ rfl] at hok
  simp only [imp, impObj, members_eq] at hok
  obtain ⟨new, rfl, h1, h2⟩ := impDict_each bsem env t _ old x (by rw [List.map_map]; exact hn) hok
  refine ⟨new, rfl, ?_, ?_⟩
  · intro e hm he hb
    obtain ⟨v, e1, e2⟩ := h1 _ (List.mem_map_of_mem hm)
    rw [dictGet_first] at e1 e2
    exact ⟨v, by rw [bsonImport_doc env cfg _ he rest _ hb]; exact e1, e2⟩
  · intro k hk
    rw [← dictGet_first, ← dictGet_first]
    refine h2 k fun m hm => ?_
    obtain ⟨e, he', rfl⟩ := List.mem_map.1 hm
    exact hk e he'

/-- C138, reading BSON: element number j, if it is a document or an array, is what that document, by itself, makes of the j-th place; every element has a place, the number of
places does not change, and places without an element stay as they were. -/
theorem C138_import_bson (env : Env) (cfg : Cfg) (ty : Ty) (tyAt : Nat → Option Ty) (hty : ElementTypes env ty tyAt) (hr : bsonBase env ty = .Array) (old : List Val) (x : Val)
    (es : List BTree) (rest : Bytes) (hdoc : Storable32 (.arr es)) (hok : bsonImport env cfg ty (.list old) (bdoc (.arr es) ++ rest) = .ok x) :
    ∃ new, x = .list new ∧ new.length = old.length ∧
      (∀ j e, es[j]? = some e → ∃ t w v, tyAt j = some t ∧ old[j]? = some w ∧ new[j]? = some v ∧
        (Storable32 e → bsonBase env t = BsonP.rootKind e → bsonImport env cfg t w (bdoc e ++ rest) = .ok v)) ∧
      ∀ j, es.length ≤ j → new[j]? = old[j]? := by
  rw [bsonImport_doc env cfg _ hdoc rest _ (by rw [hr]; rfl)] at hok
  simp only [imp] at hok
  rw [impArr_fix hty, elems_eq] at hok
  obtain ⟨new, rfl, hl, h1, h2⟩ := impFix_each tyAt _ 0 old x hok
  refine ⟨new, rfl, hl, ?_, fun j hj => h2 j (.inr (by simpa using hj))⟩
  intro j e hj
  obtain ⟨t', w, v, e1, e2, e3, e4⟩ := h1 j _ (by rw [List.getElem?_map, hj]; rfl)
  rw [Nat.zero_add] at e1 e2 e4
  exact ⟨t', w, v, e1, e2, e4, fun he hb => by rw [bsonImport_doc env cfg _ he rest _ hb]; exact e3⟩

private theorem stored7 : Storable32 (.arr [.scalar (.int32 7)]) :=
  ⟨⟨trivial, trivial⟩, ⟨show BScalar.valid (.int32 7) from by simp [BScalar.valid], trivial⟩, by decide +kernel⟩

/-- non-vacuity: the document `{why: [7]}` into a map whose entry `why` holds a 4: the entry becomes what the document `[7]` makes of it, `z` stays. -/
example : ∃ new v, bsonImport Samples.env ⟨.Strict, []⟩ (.smap (.vec Samples.int32)) (.dict old137) (bdoc (.obj [(b!"why", .arr [.scalar (.int32 7)])]) ++ []) = .ok (.dict new) ∧
    bsonImport Samples.env ⟨.Strict, []⟩ (.vec Samples.int32) (.list [.int 4]) (bdoc (.arr [.scalar (.int32 7)]) ++ []) = .ok v ∧ firstOf b!"why" new = some v ∧
    firstOf b!"z" new = some (.list []) := by
  have hd : Storable32 (.obj [(b!"why", .arr [.scalar (.int32 7)])]) :=
    ⟨⟨by decide, ⟨trivial, trivial⟩, trivial⟩, ⟨⟨show BScalar.valid (.int32 7) from by simp [BScalar.valid], trivial⟩, trivial⟩, by decide +kernel⟩
  have h : bsonImport Samples.env ⟨.Strict, []⟩ (.smap (.vec Samples.int32)) (.dict old137) (bdoc (.obj [(b!"why", .arr [.scalar (.int32 7)])]) ++ []) =
      .ok (.dict [(b!"why", .list [.int 4, .int 7]), (b!"z", .list [])]) := by
    rw [bsonImport_doc _ _ _ hd [] _ rfl]
    rfl
  obtain ⟨new, e, h1, h2⟩ := C137_import_bson Samples.env ⟨.Strict, []⟩ (.vec Samples.int32) old137 _ _ [] hd (by decide) h
  obtain ⟨v, h3, h4⟩ := h1 _ (.head _) stored7 rfl
  exact ⟨new, v, e ▸ h, h3, h4, h2 b!"z" (by decide)⟩
/-- The document `[[7]]` into a `std::array` of two vectors that hold a 4 and a 5. -/
example : ∃ new v, bsonImport Samples.env ⟨.Strict, []⟩ (.arr 2 (.vec Samples.int32)) (.list [.list [.int 4], .list [.int 5]]) (bdoc (.arr [.arr [.scalar (.int32 7)]]) ++ []) =
      .ok (.list new) ∧
    bsonImport Samples.env ⟨.Strict, []⟩ (.vec Samples.int32) (.list [.int 4]) (bdoc (.arr [.scalar (.int32 7)]) ++ []) = .ok v ∧ new[0]? = some v ∧ new[1]? = some (.list [.int 5]) := by
  have hd : Storable32 (.arr [.arr [.scalar (.int32 7)]]) :=
    ⟨⟨⟨trivial, trivial⟩, trivial⟩, ⟨⟨show BScalar.valid (.int32 7) from by simp [BScalar.valid], trivial⟩, trivial⟩, by decide +kernel⟩
  have h : bsonImport Samples.env ⟨.Strict, []⟩ (.arr 2 (.vec Samples.int32)) (.list [.list [.int 4], .list [.int 5]]) (bdoc (.arr [.arr [.scalar (.int32 7)]]) ++ []) =
      .ok (.list [.list [.int 4, .int 7], .list [.int 5]]) := by
    rw [bsonImport_doc _ _ _ hd [] _ rfl]
    rfl
  obtain ⟨new, e, -, h1, h2⟩ := C138_import_bson Samples.env ⟨.Strict, []⟩ (.arr 2 (.vec Samples.int32)) (fun i => if i < 2 then some (.vec Samples.int32) else none) (fun _ => rfl) rfl
    _ _ _ [] hd h
  obtain ⟨t, w, v, e1, e2, e3, h3⟩ := h1 0 _ rfl
  cases e1
  cases e2
  exact ⟨new, v, e ▸ h, h3 stored7 rfl, e3, h2 1 (Nat.le_refl 1)⟩

end Thors.Props
