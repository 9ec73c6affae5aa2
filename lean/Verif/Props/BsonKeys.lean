import Verif.Props.Injective
/-
C131: the keys of a map cannot add elements to a BSON document.
-/
namespace Thors.Props
open Thors Thors.Spec StrIn BPrint

/-- The type `std::map<std::string, std::int32_t>`; its value with the entries `kvs`. -/
def intMap : Ty := .smap (.int ⟨32, true⟩)
def intEntries (kvs : List (Bytes × Int)) : Val := .dict (kvs.map fun e => (e.1, .int e.2))

/-- The document of such a map. -/
def doc131 (kvs : List (Bytes × Int)) : List (Bytes × Doc) := kvs.map fun e => (e.1, .scalar (.int ⟨32, true⟩ e.2))

theorem docDict131 (env : Env) (mk : Bytes) : ∀ kvs : List (Bytes × Int),
    docDict env mk (.int ⟨32, true⟩) (kvs.map fun e => (e.1, .int e.2)) = .ok (doc131 kvs)
  | [] => by simp [docDict, doc131]
  | (k, i) :: kvs => by
    have := docDict131 env mk kvs
    simp only [List.map_cons, docDict, this, Spec.docOf, Res.ok_bind]
    simp [doc131]

theorem docOf131 (env : Env) (mk : Bytes) (kvs : List (Bytes × Int)) : Spec.docOf env mk intMap (intEntries kvs) = .ok (.obj (doc131 kvs)) := by
  simp only [intMap, intEntries, Spec.docOf, docDict131, Res.ok_bind]
  rfl

theorem size131 (env : Env) (info : SizeInfo) : ∀ kvs : List (Bytes × Int),
    SizeKnownDict env info (.int ⟨32, true⟩) (kvs.map fun e => (e.1, .int e.2))
  | [] => by simp [SizeKnownDict]
  | (k, i) :: kvs => by
    have := size131 env info kvs
    simp only [List.map_cons, SizeKnownDict]
    exact ⟨by simp [SizeKnown], this⟩

theorem scalars131 (P : Atom → Prop) (h : ∀ i, P (.int ⟨32, true⟩ i)) : ∀ kvs : List (Bytes × Int), AllScalars.members P (doc131 kvs)
  | [] => by simp [doc131, AllScalars.members]
  | (k, i) :: kvs => by
    have := scalars131 P h kvs
    simp only [doc131, List.map_cons, AllScalars.members, AllScalars] at *
    exact ⟨h i, this⟩

theorem keys131 (P : Bytes → Prop) : ∀ kvs : List (Bytes × Int), (∀ e ∈ kvs, P e.1) → AllKeys.members P (doc131 kvs)
  | [], _ => by simp [doc131, AllKeys.members]
  | (k, i) :: kvs, h => by
    have := keys131 P kvs (fun e he => h e (by simp [he]))
    have hk := h (k, i) (by simp)
    simp only [doc131, List.map_cons, AllKeys.members, AllKeys] at *
    exact ⟨hk, trivial, this⟩

theorem has131 (env : Env) : ∀ kvs : List (Bytes × Int), (∀ e ∈ kvs, -2 ^ 31 ≤ e.2 ∧ e.2 < 2 ^ 31) →
    DictHas env (.int ⟨32, true⟩) (kvs.map fun e => (e.1, .int e.2))
  | [], _ => by simp [DictHas]
  | (k, i) :: kvs, h => by
    have := has131 env kvs (fun e he => h e (by simp [he]))
    have hk := h (k, i) (by simp)
    simp only [List.map_cons, DictHas]
    refine ⟨?_, this⟩
    simp only [HasType, InRange]
    intro _
    simpa using hk

theorem plain131 (kvs : List (Bytes × Int)) : AllScalars plainAtom (.obj (doc131 kvs)) := by
  simp only [AllScalars]; exact scalars131 _ (fun _ => .inl ⟨by decide, by decide⟩) kvs

theorem export131 (env : Env) (info : SizeInfo) (mk : Bytes) (kvs : List (Bytes × Int)) :
    bsonExport env info mk intMap (intEntries kvs) = .ok (bdoc (btree (.obj (doc131 kvs)))) :=
  bsonExport_doc env info mk _ _ _ (docOf131 env mk kvs) (by simp only [intMap, intEntries, SizeKnown]; exact size131 env info kvs) (plain131 kvs) trivial

/-- The entries of a map: the keys ascend and the numbers have 32 bit. -/
def MapOf (kvs : List (Bytes × Int)) : Prop :=
  (kvs.Pairwise fun p q => keyLt p.1 q.1 = true) ∧ ∀ e ∈ kvs, -2 ^ 31 ≤ e.2 ∧ e.2 < 2 ^ 31

theorem hasType131 (env : Env) (kvs : List (Bytes × Int)) (h : MapOf kvs) : HasType env intMap (intEntries kvs) := by
  simp only [intMap, intEntries, HasType]
  refine ⟨has131 env kvs h.2, ?_⟩
  rw [List.pairwise_map]
  exact h.1

/-- C131 for keys without a NUL: the reader finds exactly the entries of the map, whatever the keys are otherwise. -/
theorem C131_partial (env : Env) (info : SizeInfo) (mk : Bytes) (hS : SolidTypes env mk) (hg : GoodTypes env) (kvs : List (Bytes × Int)) (h : MapOf kvs)
    (h0 : ∀ e ∈ kvs, (0x00 : Byte) ∉ e.1) (hl : ∀ t, bsonExport env info mk intMap (intEntries kvs) = .ok t → t.length < 2 ^ 31) :
    ∃ t, bsonExport env info mk intMap (intEntries kvs) = .ok t ∧ bsonImport env ⟨.Weak, mk⟩ intMap (intEntries []) t = .ok (intEntries kvs) := by
  have ht := hasType131 env kvs h
  obtain ⟨hs, -⟩ := back_val env mk hg hS _ intMap false (by simp [intMap, Solid]) (by simp) ht
  obtain ⟨t, p, e, i, -⟩ := C27_round_trip_partial env info mk ⟨.Weak, mk⟩ intMap _ (intEntries []) _ [] hg hS.filters rfl (by simp) (docOf131 env mk kvs) hs
    (by simpa [intMap, intEntries, Ty.default] using default_fresh env hg intMap)
    (by simp only [intMap, intEntries, SizeKnown]; exact size131 env info kvs) trivial (by simp only [AllKeys]; exact keys131 _ kvs h0) (plain131 kvs)
    (by simp only [AllScalars]; exact scalars131 _ (fun _ => trivial) kvs) (hl _ (export131 env info mk kvs))
  refine ⟨t, e, ?_⟩
  rw [List.append_nil] at i
  simp [bsonImport, i]

/-- C131 is false: nothing looks for a NUL in a key. For all names `a` and `b` and all values `m` and `n`: the map with the one entry whose key is `a`, a NUL, the
four bytes of `m`, the byte 0x10 and `b` has the same bytes as the map with the two entries `a` and `b`. -/
theorem C131_false (env : Env) (info : SizeInfo) (mk a b : Bytes) (m n : Int) (hm : -2 ^ 31 ≤ m ∧ m < 2 ^ 31) :
    bsonExport env info mk intMap (intEntries [(a ++ [0x00] ++ le 4 m ++ [0x10] ++ b, n)]) =
      bsonExport env info mk intMap (intEntries [(a, m), (b, n)]) := by
  have hs : signed32 m = m := by unfold signed32; omega
  rw [export131, export131]
  simp [doc131, btree, btree.members, bdoc, bpayload, bpayload.members, btype, bscalar, BScalar.code, BScalar.payload, hs]

/-- So who chooses one key chooses other entries as well: with `a < b` without NULs the reader finds two entries where the program wrote one. -/
theorem C131_injected (env : Env) (info : SizeInfo) (mk : Bytes) (hS : SolidTypes env mk) (hg : GoodTypes env) (a b : Bytes) (m n : Int)
    (hm : -2 ^ 31 ≤ m ∧ m < 2 ^ 31) (hn : -2 ^ 31 ≤ n ∧ n < 2 ^ 31) (hab : keyLt a b = true) (ha : (0x00 : Byte) ∉ a) (hb : (0x00 : Byte) ∉ b)
    (hl : a.length + b.length < 1000000) :
    ∃ t, bsonExport env info mk intMap (intEntries [(a ++ [0x00] ++ le 4 m ++ [0x10] ++ b, n)]) = .ok t ∧
      bsonImport env ⟨.Weak, mk⟩ intMap (intEntries []) t = .ok (intEntries [(a, m), (b, n)]) := by
  rw [C131_false env info mk a b m n hm]
  refine C131_partial env info mk hS hg _ ⟨by simpa using hab, by
    rintro e he
    simp only [List.mem_cons, List.not_mem_nil, or_false] at he
    rcases he with rfl | rfl
    · exact hm
    · exact hn⟩ (by simp [ha, hb]) ?_
  intro t ht
  rw [export131] at ht
  obtain rfl := Res.ok_inj ht
  simp [doc131, btree, btree.members, bdoc, bpayload, bpayload.members, btype, bscalar, BScalar.payload, framed, le_length]
  omega

/-- non-vacuity: a map with the keys `name` and `role`; the key `name\0…\x10role`. -/
example : ∃ t, bsonExport env104 bInfo [] intMap (intEntries [(b!"name", 7), (b!"role", -1)]) = .ok t ∧
    bsonImport env104 ⟨.Weak, []⟩ intMap (intEntries []) t = .ok (intEntries [(b!"name", 7), (b!"role", -1)]) :=
  C131_partial env104 bInfo [] env104_solid env104_good _ ⟨by decide, by decide⟩ (by decide) (by
    intro t ht
    rw [export131] at ht
    obtain rfl := Res.ok_inj ht
    decide +kernel)
example : ∃ t, bsonExport env104 bInfo [] intMap (intEntries [(b!"name" ++ [0, 7, 0, 0, 0, 0x10] ++ b!"role", 1)]) = .ok t ∧
    bsonImport env104 ⟨.Weak, []⟩ intMap (intEntries []) t = .ok (intEntries [(b!"name", 7), (b!"role", 1)]) :=
  C131_injected env104 bInfo [] env104_solid env104_good b!"name" b!"role" 7 1 (by decide) (by decide) (by decide) (by decide) (by decide) (by decide)

end Thors.Props
