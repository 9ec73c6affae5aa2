import Verif.Proofs.BsonIdsExport
import Verif.Model.Range
import Verif.Props.Bson
/-
BSON for databases. C84: the `_id` members of an insert command. C85: projections. C86: `bsonGetPrintSize`. C87: ranges.
-/
namespace Thors.Props
open Thors Spec StrIn

/-! ### Sample -/

/-- `struct Doc { int a; std::vector<Sub> subs; }` (1) in `struct Insert { std::string insert; std::vector<Doc> documents; Sub lone; }` (0),
`struct Sub { bool on; }` (2). -/
def iEnv : Env where
  defs
    | 0 => .cls ⟨.mk [] [⟨b!"insert", b!"insert", .str⟩, ⟨b!"documents", b!"documents", .vec (.named 1)⟩, ⟨b!"lone", b!"lone", .named 2⟩] none, b!"Insert", none⟩
    | 1 => .cls ⟨.mk [] [⟨b!"a", b!"a", Samples.int32⟩, ⟨b!"subs", b!"subs", .vec (.named 2)⟩] none, b!"Doc", none⟩
    | 2 => .cls ⟨.mk [] [⟨b!"on", b!"on", .bool⟩] none, b!"Sub", none⟩
    | _ => .enum []
  dflt _ := .enum 0
  registry := []
  derives c b := decide (c = b)

def iInfo : BPrint.SizeInfo where
  virt _ := false
  pair _ := false

def iVal : Val := .obj [] [.str b!"coll", .list [.obj [] [.int 1, .list [.obj [] [.bool true]]], .obj [] [.int (-2), .list []]], .obj [] [.bool false]]

def iSub (b : Bool) : Doc := .obj [(b!"on", .scalar (.bool b))]
def iDoc : Doc := .obj [(b!"insert", .scalar (.str b!"coll")),
  (b!"documents", .arr [.obj [(b!"a", .scalar (.int ⟨32, true⟩ 1)), (b!"subs", .arr [iSub true])],
    .obj [(b!"a", .scalar (.int ⟨32, true⟩ (-2))), (b!"subs", .arr [])]]),
  (b!"lone", iSub false)]

/-- Identifiers that differ. -/
def iFresh (n : Nat) : ObjectID := ⟨1700000000, 77, n, []⟩

theorem iVal_doc : docOf iEnv [] (.named 0) iVal = .ok iDoc := by
  simp [docOf, docOwn, docParents, docList, iVal, iEnv, Samples.int32, shown, iDoc, iSub]

theorem iVal_sizeKnown : SizeKnown iEnv iInfo false (.named 0) iVal := by
  simp [SizeKnown, SizeKnownOwn, SizeKnownParents, SizeKnownList, iVal, iEnv, iInfo, Samples.int32]

theorem iVal_top : TopLevel iEnv (.named 0) iVal := by simp [TopLevel, iEnv, iVal]

theorem iVal_plain : AllScalars plainAtom iDoc := by
  simp [iDoc, iSub, AllScalars, AllScalars.members, AllScalars.elems, plainAtom]
  decide

/-! ### C84 -/

/-- C84 for streams, for the values of C26 (`SizeKnown`, `TopLevel`, strings that need no escapes). With a store, each document that is an element of an
array that is a member of the exported document gets a member `_id` in front of its others, with a new identifier; nothing else is different
from the document without a store; the lengths count the new members. The store has the same identifiers at its end, in the
order of the documents. `fresh` is the sequence of the identifiers that are made. -/
theorem C84_ids_to_stream_partial (env : Env) (info : BPrint.SizeInfo) (mk : Bytes) (fresh : Nat → ObjectID) (ty : Ty) (v : Val) (store : List ObjectID) (d : Doc)
    (hd : docOf env mk ty v = .ok d) (hk : SizeKnown env info false ty v) (ha : AllScalars plainAtom d) (ht : TopLevel env ty v) :
    bsonExportIds env info mk fresh ty v (some store) =
      .ok (bdoc (withIds fresh (btree d)), some (store ++ (List.range (idsNeeded (btree d))).map fresh)) :=
  bsonExportIds_doc env info mk fresh ty v (some store) d hd hk ha ht

/-- C84, without a store: the export of C26. -/
theorem C84_no_store_partial (env : Env) (info : BPrint.SizeInfo) (mk : Bytes) (fresh : Nat → ObjectID) (ty : Ty) (v : Val) (d : Doc)
    (hd : docOf env mk ty v = .ok d) (hk : SizeKnown env info false ty v) (ha : AllScalars plainAtom d) (ht : TopLevel env ty v) :
    bsonExportIds env info mk fresh ty v none = .ok (bdoc (btree d), none) :=
  bsonExportIds_doc env info mk fresh ty v none d hd hk ha ht

example : bsonExportIds iEnv iInfo [] iFresh (.named 0) iVal (some [iFresh 9]) =
    .ok (bdoc (.obj [(b!"insert", .scalar (.str b!"coll")),
      (b!"documents", .arr [
        .obj [(b!"_id", .scalar (.fixed .objectId (be 4 1700000000 ++ be 5 77 ++ be 3 0))), (b!"a", .scalar (.int32 1)), (b!"subs", .arr [.obj [(b!"on", .scalar (.bool true))]])],
        .obj [(b!"_id", .scalar (.fixed .objectId (be 4 1700000000 ++ be 5 77 ++ be 3 1))), (b!"a", .scalar (.int32 (-2))), (b!"subs", .arr [])]]),
      (b!"lone", .obj [(b!"on", .scalar (.bool false))])]), some [iFresh 9, iFresh 0, iFresh 1]) :=
  C84_ids_to_stream_partial iEnv iInfo [] iFresh (.named 0) iVal [iFresh 9] iDoc iVal_doc iVal_sizeKnown iVal_plain iVal_top

/-- What is different for `std::string`: the printer makes two passes, and each makes its own identifiers. The document has those of the second pass;
the store has those of both, twice as many as there are documents. -/
theorem C84_ids_to_string_partial (env : Env) (info : BPrint.SizeInfo) (mk : Bytes) (fresh : Nat → ObjectID) (ty : Ty) (v : Val) (store : List ObjectID) (old : Bytes)
    (d : Doc) (hd : docOf env mk ty v = .ok d) (hk : SizeKnown env info false ty v) (ha : AllScalars plainAtom d) (ht : TopLevel env ty v) :
    bsonExportIdsString env info mk fresh ty v (some store) old =
      .ok (bdoc (withIds (fun i => fresh (idsNeeded (btree d) + i)) (btree d)), some (store ++ (List.range (2 * idsNeeded (btree d))).map fresh)) :=
  bsonExportIdsString_doc env info mk fresh ty v (some store) old d hd hk ha ht

example : bsonExportIdsString iEnv iInfo [] iFresh (.named 0) iVal (some []) b!"old" =
    .ok (bdoc (withIds (fun i => iFresh (2 + i)) (btree iDoc)), some [iFresh 0, iFresh 1, iFresh 2, iFresh 3]) :=
  C84_ids_to_string_partial iEnv iInfo [] iFresh (.named 0) iVal [] b!"old" iDoc iVal_doc iVal_sizeKnown iVal_plain iVal_top

/-- C84 does not hold for `std::string`: there are identifiers in the store that are in no document. -/
theorem C84_ids_to_string_false :
    ¬ ∀ (env : Env) (info : BPrint.SizeInfo) (mk : Bytes) (fresh : Nat → ObjectID) (ty : Ty) (v : Val) (store : List ObjectID) (old : Bytes) (d : Doc),
      docOf env mk ty v = .ok d → SizeKnown env info false ty v → AllScalars plainAtom d → TopLevel env ty v →
      ∃ t out, bsonExportIdsString env info mk fresh ty v (some store) old = .ok (t, some out) ∧ out.length = store.length + idsNeeded (btree d) := by
  intro h
  obtain ⟨t, out, e, hl⟩ := h iEnv iInfo [] iFresh (.named 0) iVal [] [] iDoc iVal_doc iVal_sizeKnown iVal_plain iVal_top
  rw [C84_ids_to_string_partial iEnv iInfo [] iFresh (.named 0) iVal [] [] iDoc iVal_doc iVal_sizeKnown iVal_plain iVal_top] at e
  simp only [Res.ok.injEq, Prod.mk.injEq, Option.some.injEq] at e
  rw [← e.2] at hl
  revert hl
  decide +kernel

/-! ### C85 -/

/-- C85, for a projection that is exported by itself, made from a value that is represented by an array or a document (`SizeKnown` as in C26; any strings).
The export is the document with the same members, in the same order and nesting, and the number 1 for each value. -/
theorem C85_projection_partial (env : Env) (info : BPrint.SizeInfo) (mk : Bytes) (ty : Ty) (v : Val) (d : Doc) (hd : docOf env mk ty v = .ok d)
    (hk : SizeKnown env info false ty v) (hs : ∀ a, d ≠ .scalar a) : bsonExportProjection env info mk ty v = .ok (bdoc (ones d)) :=
  bsonExportProjection_doc env info mk ty v d hd hk hs

example : bsonExportProjection iEnv iInfo [] (.named 0) iVal =
    .ok (bdoc (.obj [(b!"insert", .scalar (.int32 1)),
      (b!"documents", .arr [.obj [(b!"a", .scalar (.int32 1)), (b!"subs", .arr [.obj [(b!"on", .scalar (.int32 1))]])],
        .obj [(b!"a", .scalar (.int32 1)), (b!"subs", .arr [])]]),
      (b!"lone", .obj [(b!"on", .scalar (.int32 1))])])) :=
  C85_projection_partial iEnv iInfo [] (.named 0) iVal iDoc iVal_doc iVal_sizeKnown (by intro a; simp [iDoc])

example : bsonExportProjection bEnv bInfo [] (.named 1) bNode = .ok (bdoc (ones bNodeDoc)) :=
  C85_projection_partial bEnv bInfo [] (.named 1) bNode bNodeDoc bNode_doc bNode_sizeKnown (by intro a; simp [bNodeDoc])

/-- C85 does not hold for a single value: its document lacks the last byte. -/
theorem C85_scalar_false :
    ¬ ∀ (env : Env) (info : BPrint.SizeInfo) (mk : Bytes) (ty : Ty) (v : Val) (d : Doc), docOf env mk ty v = .ok d → SizeKnown env info false ty v →
      bsonExportProjection env info mk ty v = .ok (bdoc (ones d)) := by
  intro h
  have := h iEnv iInfo [] .bool (.bool true) (.scalar (.bool true)) rfl trivial
  revert this
  decide +kernel

example : bsonExportProjection iEnv iInfo [] .bool (.bool true) = .ok [12, 0, 0, 0, 0x10, 0x30, 0, 1, 0, 0, 0] := by decide +kernel

/-- C85 does not hold for a projection that is a member of a class: the length of the outer document is that without the projection. -/
theorem C85_member_false :
    ¬ ∀ (env : Env) (info : BPrint.SizeInfo) (mk key : Bytes) (ty : Ty) (v : Val) (d : Doc), docOf env mk ty v = .ok d → SizeKnown env info false ty v →
      bsonExportProjMember env info mk key ty v = .ok (bdoc (.obj [(key, ones d)])) := by
  intro h
  have := h iEnv iInfo [] b!"projection" (.named 2) (.obj [] [.bool true]) (iSub true)
    (by simp [docOf, docOwn, docParents, iEnv, shown, iSub]) (by simp [SizeKnown, SizeKnownOwn, SizeKnownParents, iEnv, iInfo])
  revert this
  decide +kernel

/-- The outer document says it has 27 bytes; it has 30. -/
example : ∃ t, bsonExportProjMember iEnv iInfo [] b!"projection" (.named 2) (.obj [] [.bool true]) = .ok t ∧ t.take 4 = [27, 0, 0, 0] ∧ t.length = 30 :=
  ⟨_, rfl, by decide +kernel, by decide +kernel⟩

/-! ### C86 -/

/-- C86, for values that are represented by an array or a document (`SizeKnown` and `TopLevel` as in C26, strings that need no escapes): `bsonGetPrintSize` is the number
of bytes that an export to a stream writes, with and without a store. -/
theorem C86_size_partial (env : Env) (info : BPrint.SizeInfo) (mk : Bytes) (fresh : Nat → ObjectID) (ty : Ty) (v : Val) (store : Option (List ObjectID)) (d : Doc)
    (hd : docOf env mk ty v = .ok d) (hk : SizeKnown env info false ty v) (ha : AllScalars plainAtom d) (ht : TopLevel env ty v) (hs : ∀ a, d ≠ .scalar a) :
    ∃ t out, bsonExportIds env info mk fresh ty v store = .ok (t, out) ∧ bsonGetPrintSize env info mk ty v store = .ok t.length :=
  ⟨_, _, bsonExportIds_doc env info mk fresh ty v store d hd hk ha ht, bsonGetPrintSize_doc env info mk ty v store d hd hk ht hs fresh⟩

example : ∃ t out, bsonExportIds iEnv iInfo [] iFresh (.named 0) iVal (some []) = .ok (t, out) ∧ bsonGetPrintSize iEnv iInfo [] (.named 0) iVal (some []) = .ok t.length :=
  C86_size_partial iEnv iInfo [] iFresh (.named 0) iVal (some []) iDoc iVal_doc iVal_sizeKnown iVal_plain iVal_top (by intro a; simp [iDoc])

/-- C86 does not hold for single values: the document around them is not counted. -/
theorem C86_scalar_false :
    ¬ ∀ (env : Env) (info : BPrint.SizeInfo) (mk : Bytes) (fresh : Nat → ObjectID) (ty : Ty) (v : Val) (d : Doc), docOf env mk ty v = .ok d →
      SizeKnown env info false ty v → AllScalars plainAtom d → TopLevel env ty v →
      ∃ t out, bsonExportIds env info mk fresh ty v none = .ok (t, out) ∧ bsonGetPrintSize env info mk ty v none = .ok t.length := by
  intro h
  obtain ⟨t, out, e, hl⟩ := h iEnv iInfo [] iFresh .bool (.bool true) (.scalar (.bool true)) rfl trivial trivial trivial
  have : bsonExportIds iEnv iInfo [] iFresh .bool (.bool true) none = .ok ([9, 0, 0, 0, 8, 0x30, 0, 1, 0], none) := by decide +kernel
  rw [this] at e
  simp only [Res.ok.injEq, Prod.mk.injEq] at e
  rw [← e.1] at hl
  revert hl
  decide +kernel

/-! ### C87 -/

/-- C87, BSON: exporting a range to a stream is exporting the vector of its elements, whatever they are, and whether there is a store or not. -/
theorem C87_range_bson_partial (env : Env) (info : BPrint.SizeInfo) (mk : Bytes) (fresh : Nat → ObjectID) (t : Ty) (vs : List Val) (store : Option (List ObjectID)) :
    bsonExportRange env info mk fresh t vs store = bsonExportIds env info mk fresh (.vec t) (.list vs) store :=
  bsonExportRange_vec env info mk fresh t vs store

/-- C87, BSON: so it is the array of the elements; there are no identifiers in it. -/
theorem C87_range_bson_doc_partial (env : Env) (info : BPrint.SizeInfo) (mk : Bytes) (fresh : Nat → ObjectID) (t : Ty) (vs : List Val) (store : Option (List ObjectID))
    (d : Doc) (hd : docOf env mk (.vec t) (.list vs) = .ok d) (hk : SizeKnownList env info t vs) (ha : AllScalars plainAtom d) :
    bsonExportRange env info mk fresh t vs store = .ok (bdoc (btree d), store) := by
  rw [C87_range_bson_partial, bsonExportIds_doc env info mk fresh (.vec t) (.list vs) store d hd hk ha trivial]
  have hd' := hd
  rw [docOf] at hd'
  obtain ⟨ds, -, h2⟩ := Res.bind_ok hd'
  obtain rfl := Res.ok_inj h2
  cases store with
  | none => rfl
  | some l => simp [BIds.idTree, BIds.idCount, btree, withIds, idsNeeded]

example : bsonExportRange iEnv iInfo [] iFresh (.named 2) [.obj [] [.bool true], .obj [] [.bool false]] (some []) =
    .ok (bdoc (.arr [.obj [(b!"on", .scalar (.bool true))], .obj [(b!"on", .scalar (.bool false))]]), some []) :=
  C87_range_bson_doc_partial iEnv iInfo [] iFresh (.named 2) [.obj [] [.bool true], .obj [] [.bool false]] (some []) (.arr [iSub true, iSub false])
    (by simp [docOf, docList, docOwn, docParents, iEnv, shown, iSub]) (by simp [SizeKnownList, SizeKnown, SizeKnownOwn, SizeKnownParents, iEnv, iInfo])
    (by simp [iSub, AllScalars, AllScalars.members, AllScalars.elems, plainAtom])

theorem rangeItems_list (env : Env) (mk : Bytes) (t : Ty) : ∀ vs : List Val, rangeItems env mk t vs = serList env mk noSize t vs
  | [] => rfl
  | v :: vs => by rw [rangeItems, serList, rangeItems_list env mk t vs]

theorem rangeCmds_vec (env : Env) (mk : Bytes) (t : Ty) (vs : List Val) : rangeCmds env mk t vs = ser env mk noSize (.vec t) (.list vs) := by
  rw [rangeCmds, rangeItems_list]
  rfl

/-- C87, JSON: exporting a range to a stream is exporting the vector of its elements, whatever they are, with any configuration. -/
theorem C87_range_json_partial (env : Env) (cfg : PrintCfg) (t : Ty) (vs : List Val) :
    jsonExportRange env cfg t vs = jsonExport env cfg (.vec t) (.list vs) := by
  rw [jsonExportRange, rangeCmds_vec]; rfl

example : jsonExportRange iEnv { layout := .Stream } (.named 2) [.obj [] [.bool true], .obj [] [.bool false]] = .ok b!"[{\"on\":true},{\"on\":false}]" := by
  rw [C87_range_json_partial]; decide +kernel

/-- C87, YAML. -/
theorem C87_range_yaml_partial (accepts : Bytes → Bool) (env : Env) (mk : Bytes) (t : Ty) (vs : List Val) :
    yamlExportRange accepts env mk t vs = yamlExport accepts env mk (.vec t) (.list vs) := by
  rw [yamlExportRange, rangeCmds_vec]; rfl

/-- C87 does not hold for output to a `std::string`: every export of a range, in every layout, writes through a null pointer. -/
theorem C87_range_to_string_false (cfg : PrintCfg) (old : Bytes) : jsonRangeToStringStart cfg old = .ub := by
  unfold jsonRangeToStringStart
  simp only [JPrint.step, JPrint.init, JPrint.indentSuffix]
  split
  · rfl
  · split
    · simp only [Res.ok_bind, Res.pure_eq, StrOut.ofString]
      simp [JPrint.separator, StrOut.putAll, StrOut.put, StrOut.copy]
    · rfl

/-- The same for BSON. -/
theorem C87_range_bson_to_string_false (env : Env) (info : BPrint.SizeInfo) (mk : Bytes) (t : Ty) (vs : List Val) (old : Bytes) (n : Nat)
    (h : BIds.psizeList env mk info false false [.Array] t vs = .ok n) : bsonRangeToStringStart env info mk t vs old = .ub := by
  rw [bsonRangeToStringStart, h]
  rfl

example : bsonRangeToStringStart iEnv iInfo [] .bool [.bool true] b!"old" = .ub := C87_range_bson_to_string_false _ _ _ _ _ _ 1 rfl

end Thors.Props
