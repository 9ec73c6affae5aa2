import Verif.Proofs.BsonAhead
import Verif.Props.Bson
/-
C80: BSON read from a stream and from a string. C81: several BSON documents in one stream.
C82: a BSON import takes only its document out of the stream.
-/
namespace Thors.Props
open Thors Spec

/-- The bytes of the counterexample: a document of 17 bytes with a string of the negative size -7 under the key `"\x01a"`. -/
def odd80 : Bytes := [0x11, 0, 0, 0, 0x02, 0x01, 0x61, 0, 0xF9, 0xFF, 0xFF, 0xFF, 0xFF, 0xFF, 0xFF, 0xFF, 0]

/-- A class without members. -/
def env80 : Env where
  defs _ := .cls ⟨.mk [] [] none, b!"Empty", none⟩
  dflt _ := .obj [] []
  registry := []
  derives _ _ := false

/-- The parser on a string in the middle of `odd80`. -/
def at80 (pos : Nat) (left : List Int) (next : Tok) (key : Bytes) (type : Byte) : BsonP :=
  ⟨⟨odd80, pos, true⟩, [.Map], left, left.map fun _ => 17, next, key, type, false⟩

/-- One member without a slot, skipped. -/
theorem skip_step {σ : Type} (o : POps σ) (env : Env) (mk : Bytes) (d : StructDef) (found : List Bytes) (old : Val) {s s1 s2 s3 : σ} {k : Bytes}
    (h1 : o.next s = .ok (.Key, s1)) (h2 : o.getKey s1 = .ok (k, s2)) (hf : d.find k = none) (h3 : o.next s2 = .ok (.Value, s3)) :
    deserMembers o env ⟨.Weak, mk⟩ d found old (PI.init s) = (o.ignoreData s3 >>= fun s4 => deserMembers o env ⟨.Weak, mk⟩ d found old (PI.init s4)) := by
  rw [deserMembers]
  have e1 : (PI.init s).getToken o = .ok (.Key, PI.init s1) := gets_next o h1
  rw [e1]
  simp only [Res.ok_bind, reduceCtorEq, if_false]
  have e2 : (PI.init s1).lift (o.getKey (PI.init s1).inner) = .ok (k, PI.init s2) := by
    show (PI.init s1).lift (o.getKey s1) = _
    rw [h2]; rfl
  rw [e2]
  simp only [Res.ok_bind, hf]
  have e3 : PI.ignoreValue o .Weak (PI.init s2) = (o.ignoreData s3 >>= fun s4 => .ok (PI.init s4)) := by
    unfold PI.ignoreValue
    rw [if_neg (by simp), ignoreTheValue]
    show (do let s ← (do let (t, s) ← o.next s2; match t with | .Value => o.ignoreData s | .MapStart => ignoreTheMap o s | .ArrayStart => ignoreTheArray o s | _ => throwStd); _) = _
    rw [h3]
    simp only [Res.ok_bind]
    cases o.ignoreData s3 <;> rfl
  rw [e3]
  cases o.ignoreData s3 <;> rfl

theorem odd80_string : bsonImport env80 ⟨.Weak, []⟩ (.named 0) (.obj [] []) odd80 = .ok (.obj [] []) := by
  unfold bsonImport importValue
  have h0 : (PI.init (BsonP.ofBytes (bsonBase env80 (.named 0)) odd80)).getToken BsonP.ops = .ok (.DocStart, PI.init (at80 0 [] .MapStart [] 0)) := rfl
  rw [h0]
  simp only [Res.ok_bind, ne_eq, not_true_eq_false, if_false]
  rw [deser]
  show (do let (v, p) ← deserClass BsonP.ops env80 ⟨.Weak, []⟩ (.mk [] [] none) (.obj [] []) (PI.init (at80 0 [] .MapStart [] 0)); _) >>= _ = _
  rw [deserClass]
  have h1 : (PI.init (at80 0 [] .MapStart [] 0)).getToken BsonP.ops = .ok (.MapStart, PI.init (at80 4 [13] .Key [] 0)) := rfl
  rw [h1]
  simp only [Res.ok_bind, ne_eq, not_true_eq_false, if_false]
  rw [skip_step BsonP.ops env80 [] (.mk [] [] none) [] (.obj [] []) (s := at80 4 [13] .Key [] 0) (s1 := at80 8 [9] .Value [0x01, 0x61] 0x02)
    (s2 := at80 8 [9] .Value [0x01, 0x61] 0x02) (s3 := { at80 8 [9] .Value [0x01, 0x61] 0x02 with skip := true }) (k := [0x01, 0x61]) rfl rfl rfl rfl]
  have h2 : BsonP.ops.ignoreData { at80 8 [9] .Value [0x01, 0x61] 0x02 with skip := true } = .ok { at80 5 [12] .Value [0x01, 0x61] 0x02 with skip := true } := rfl
  rw [h2]
  simp only [Res.ok_bind]
  rw [skip_step BsonP.ops env80 [] (.mk [] [] none) [] (.obj [] []) (s := { at80 5 [12] .Value [0x01, 0x61] 0x02 with skip := true }) (s1 := at80 8 [9] .Value [0x61] 0x01)
    (s2 := at80 8 [9] .Value [0x61] 0x01) (s3 := { at80 8 [9] .Value [0x61] 0x01 with skip := true }) (k := [0x61]) rfl rfl rfl rfl]
  have h3 : BsonP.ops.ignoreData { at80 8 [9] .Value [0x61] 0x01 with skip := true } = .ok { at80 16 [1] .Value [0x61] 0x01 with skip := true } := rfl
  rw [h3]
  simp only [Res.ok_bind]
  rw [deserMembers]
  rfl

theorem odd80_stream : bsonStreamImport env80 ⟨.Weak, []⟩ (.named 0) (.obj [] []) (IStr.ofBytes odd80) = throwStd := by
  unfold bsonStreamImport importValue
  have h0 : (PI.init (BsonS.ofStream (bsonBase env80 (.named 0)) (IStr.ofBytes odd80))).getToken BsonS.ops =
    .ok (.DocStart, PI.init ((at80 0 [] .MapStart [] 0).onto (IStr.ofBytes odd80))) := rfl
  rw [h0]
  simp only [Res.ok_bind, ne_eq, not_true_eq_false, if_false]
  rw [deser]
  show (do let (v, p) ← deserClass BsonS.ops env80 ⟨.Weak, []⟩ (.mk [] [] none) (.obj [] []) (PI.init ((at80 0 [] .MapStart [] 0).onto (IStr.ofBytes odd80))); _) >>= _ = _
  rw [deserClass]
  have h1 : (PI.init ((at80 0 [] .MapStart [] 0).onto (IStr.ofBytes odd80))).getToken BsonS.ops = .ok (.MapStart, PI.init ((at80 4 [13] .Key [] 0).onto ⟨odd80, 4, false, false, true⟩)) := rfl
  rw [h1]
  simp only [Res.ok_bind, ne_eq, not_true_eq_false, if_false]
  rw [skip_step BsonS.ops env80 [] (.mk [] [] none) [] (.obj [] []) (s := (at80 4 [13] .Key [] 0).onto ⟨odd80, 4, false, false, true⟩) (s1 := (at80 8 [9] .Value [0x01, 0x61] 0x02).onto ⟨odd80, 8, false, false, true⟩)
    (s2 := (at80 8 [9] .Value [0x01, 0x61] 0x02).onto ⟨odd80, 8, false, false, true⟩) (s3 := { (at80 8 [9] .Value [0x01, 0x61] 0x02).onto ⟨odd80, 8, false, false, true⟩ with skip := true }) (k := [0x01, 0x61]) rfl rfl rfl rfl]
  have h2 : BsonS.ops.ignoreData { (at80 8 [9] .Value [0x01, 0x61] 0x02).onto ⟨odd80, 8, false, false, true⟩ with skip := true } =
    .ok { (at80 12 [12] .Value [0x01, 0x61] 0x02).onto ⟨odd80, 12, false, false, true⟩ with skip := true } := rfl
  rw [h2]
  simp only [Res.ok_bind]
  rw [skip_step BsonS.ops env80 [] (.mk [] [] none) [] (.obj [] []) (s := { (at80 12 [12] .Value [0x01, 0x61] 0x02).onto ⟨odd80, 12, false, false, true⟩ with skip := true })
    (s1 := (at80 17 [7] .Value [0xFF, 0xFF, 0xFF] 0xFF).onto ⟨odd80, 17, false, false, true⟩)
    (s2 := (at80 17 [7] .Value [0xFF, 0xFF, 0xFF] 0xFF).onto ⟨odd80, 17, false, false, true⟩)
    (s3 := { (at80 17 [7] .Value [0xFF, 0xFF, 0xFF] 0xFF).onto ⟨odd80, 17, false, false, true⟩ with skip := true }) (k := [0xFF, 0xFF, 0xFF]) rfl rfl rfl rfl]
  rfl

/-! ### C80 -/

/-- C80 for documents. A stream that stands in front of any document, with anything behind it, and a string with the same bytes: the imports end
in the same way, with the same value or the same exception; on success the stream is right behind the document and in a good state.
All documents, all types, all modes. -/
theorem C80_documents (env : Env) (cfg : Cfg) (ty : Ty) (old : Val) (t : BTree) (rest : Bytes) (h : Storable32 t) (hb : bsonBase env ty = BsonP.rootKind t)
    (i : IStr) (hi : Stands (bdoc t ++ rest) i) :
    (∃ v i', bsonImport env cfg ty old (bdoc t ++ rest) = .ok v ∧ bsonStreamImport env cfg ty old i = .ok (v, i') ∧ Stands rest i') ∨
    (∃ e, bsonImport env cfg ty old (bdoc t ++ rest) = .throw e ∧ bsonStreamImport env cfg ty old i = .throw e) ∨
    (bsonImport env cfg ty old (bdoc t ++ rest) = .ub ∧ bsonStreamImport env cfg ty old i = .ub) := by
  rw [bsonImport_doc env cfg t h rest ty hb old]
  exact bson_stream_doc env cfg t h rest ty hb old hi

/-- C80 for any bytes, documents or not, in the modes Strict and Exact: what is imported from a string is imported from a stream, and
the other way round. In the mode Weak only if no byte is above 0x7F. -/
theorem C80_any_bytes_partial (env : Env) (cfg : Cfg) (ty : Ty) (old v : Val) (bytes : Bytes) (hw : cfg.strict = .Weak → ∀ b ∈ bytes, b.toNat < 128)
    (i : IStr) (hi : Stands bytes i) :
    bsonImport env cfg ty old bytes = .ok v ↔ ∃ i', bsonStreamImport env cfg ty old i = .ok (v, i') := by
  rw [hi.eq]
  constructor
  · intro h
    unfold bsonImport at h
    obtain ⟨⟨v', q⟩, h1, h2⟩ := Res.bind_ok h
    cases h2
    obtain ⟨i', e, -⟩ := bson_string_to_stream env cfg ty old (i.data.take i.pos) bytes i.seekable hw h1
    exact ⟨i', e⟩
  · rintro ⟨i', e⟩
    exact bson_stream_to_string env cfg ty old _ bytes _ hw e

/-- C80 is false for other bytes in the mode Weak. The string of the negative size -7 that is skipped moves the position in a string back,
so that the end of the key is read again as a `double`; a stream stays where it is. -/
theorem C80_false : ¬ ∀ (env : Env) (cfg : Cfg) (ty : Ty) (old v : Val) (bytes : Bytes) (i : IStr), Stands bytes i →
    (bsonImport env cfg ty old bytes = .ok v ↔ ∃ i', bsonStreamImport env cfg ty old i = .ok (v, i')) := by
  intro h
  obtain ⟨i', e⟩ := (h env80 ⟨.Weak, []⟩ (.named 0) (.obj [] []) (.obj [] []) odd80 (IStr.ofBytes odd80) ⟨rfl, Nat.zero_le _, rfl, rfl⟩).1 odd80_string
  rw [odd80_stream] at e
  cases e

/-- A stream on a whole file. -/
theorem stands_ofBytes (b : Bytes) (sk : Bool) : Stands b (IStr.ofBytes b sk) := ⟨rfl, Nat.zero_le _, rfl, rfl⟩

/-- non-vacuity: the sample document in a pipe, something behind it, imported in the mode Weak. -/
example : ∃ i', bsonStreamImport bEnv ⟨.Weak, []⟩ (.named 1) (bEnv.dflt 1) (IStr.ofBytes (bdoc (btree bNodeDoc) ++ b!"tail") false) = .ok (bNode, i') ∧ Stands b!"tail" i' := by
  obtain ⟨bytes, p, h1, h2, h3⟩ := C27_round_trip_partial bEnv bInfo [] ⟨.Weak, []⟩ (.named 1) bNode (bEnv.dflt 1) bNodeDoc b!"tail" bEnv_good bEnv_noFilter rfl (by simp) bNode_doc
    bNode_storable (bEnv_good.fresh 1) bNode_sizeKnown bNode_top bNode_keys bNode_plain bNode_doubles bNode_length
  rw [C26_sizes_partial bEnv bInfo [] _ _ _ bNode_doc bNode_sizeKnown bNode_plain bNode_top] at h1
  cases h1
  have h4 : bsonImport bEnv ⟨.Weak, []⟩ (.named 1) (bEnv.dflt 1) (bdoc (btree bNodeDoc) ++ b!"tail") = .ok bNode := by unfold bsonImport; rw [h2]; rfl
  rcases C80_documents bEnv ⟨.Weak, []⟩ (.named 1) (bEnv.dflt 1) (btree bNodeDoc) b!"tail" ⟨bkeys _ bNode_keys, bvalid _, bNode_length⟩ rfl
    _ (stands_ofBytes _ false) with ⟨v, i', e1, e2, e3⟩ | ⟨e, e1, -⟩ | ⟨e1, -⟩
  · rw [h4] at e1; cases e1; exact ⟨i', e2, e3⟩
  · rw [h4] at e1; cases e1
  · rw [h4] at e1; cases e1

/-! ### C81 -/

/-- Imports of several objects, one after the other, from one stream. -/
noncomputable def bsonImportAll (env : Env) (cfg : Cfg) : List (Ty × Val) → IStr → Res (List Val × IStr)
  | [], i => .ok ([], i)
  | (ty, old) :: rest, i => do
    let (v, i) ← bsonStreamImport env cfg ty old i
    let (vs, i) ← bsonImportAll env cfg rest i
    return (v :: vs, i)

/-- `bytes` is a sequence of documents, one for each object, each of which a string import on its own reads into the object with the value
in the list; then comes `post`. -/
inductive BsonDocuments (env : Env) (cfg : Cfg) (post : Bytes) : List (Ty × Val) → List Val → Bytes → Prop
  | nil : BsonDocuments env cfg post [] [] post
  | cons {ty old rest v vs t bytes} (h : Storable32 t) (hb : bsonBase env ty = BsonP.rootKind t) (hv : bsonImport env cfg ty old (bdoc t) = .ok v)
      (hs : BsonDocuments env cfg post rest vs bytes) : BsonDocuments env cfg post ((ty, old) :: rest) (v :: vs) (bdoc t ++ bytes)

/-- C81: BSON documents standing one behind the other in a stream are imported one after the other: every import reads its document as if
it were alone, and leaves the stream in front of the next one. -/
theorem C81_documents_in_sequence (env : Env) (cfg : Cfg) (post : Bytes) (targets : List (Ty × Val)) (vs : List Val) (bytes : Bytes)
    (h : BsonDocuments env cfg post targets vs bytes) (i : IStr) (hi : Stands bytes i) :
    ∃ i', bsonImportAll env cfg targets i = .ok (vs, i') ∧ Stands post i' := by
  induction h generalizing i with
  | nil => exact ⟨i, rfl, hi⟩
  | @cons ty old rest v vs t bytes ht hb hv hs ih =>
    have hv' : bsonImport env cfg ty old (bdoc t ++ bytes) = .ok v := by
      rw [bsonImport_doc env cfg t ht bytes ty hb old]
      rw [← List.append_nil (bdoc t), bsonImport_doc env cfg t ht [] ty hb old] at hv
      exact hv
    rcases C80_documents env cfg ty old t bytes ht hb i hi with ⟨v', i1, e1, e2, h1⟩ | ⟨e, e1, -⟩ | ⟨e1, -⟩
    · rw [hv'] at e1
      cases e1
      obtain ⟨i2, e3, h2⟩ := ih i1 h1
      exact ⟨i2, by simp only [bsonImportAll, e2, e3, Res.ok_bind]; rfl, h2⟩
    · rw [hv'] at e1; cases e1
    · rw [hv'] at e1; cases e1

/-- C81, written and read back. Any number of values of any types, with the restrictions of C27, each exported to BSON, the bytes put one behind
the other into a stream and imported one after the other into fresh objects: the values come back, and what follows is still in the stream. -/
theorem C81_exports_in_sequence (env : Env) (info : BPrint.SizeInfo) (mk : Bytes) (cfg : Cfg) (hg : GoodTypes env) (hnf : ∀ i c, env.defs i = .cls c → NoFilter c.traits)
    (hm : cfg.marker = mk) (hx : cfg.strict = .Exact → ExactTypes env) (post : Bytes) (items : List (Ty × Val × Val))
    (hi : ∀ ty v old, (ty, v, old) ∈ items → ∃ d, docOf env mk ty v = .ok d ∧ Storable env mk ty v ∧ Fresh env ty old ∧ SizeKnown env info false ty v ∧ TopLevel env ty v ∧
      AllKeys (fun k => (0x00 : Byte) ∉ k) d ∧ AllScalars plainAtom d ∧ AllScalars doubleAtom d ∧ (bdoc (btree d)).length < 2 ^ 31) :
    ∃ docs : List Bytes, List.map (fun x => bsonExport env info mk x.1 x.2.1) items = docs.map Res.ok ∧
      ∀ i, Stands (docs.flatten ++ post) i → ∃ i', bsonImportAll env cfg (items.map fun x => (x.1, x.2.2)) i = .ok (items.map fun x => x.2.1, i') ∧ Stands post i' := by
  have key : ∃ docs : List Bytes, List.map (fun x => bsonExport env info mk x.1 x.2.1) items = docs.map Res.ok ∧
      BsonDocuments env cfg post (items.map fun x => (x.1, x.2.2)) (items.map fun x => x.2.1) (docs.flatten ++ post) := by
    induction items with
    | nil => exact ⟨[], rfl, .nil⟩
    | cons x items ih =>
      obtain ⟨ty, v, old⟩ := x
      obtain ⟨docs, h1, h2⟩ := ih fun ty v old h => hi ty v old (List.mem_cons_of_mem _ h)
      obtain ⟨d, hd, hs, ho, hz, ht, hk, ha, hf, hl⟩ := hi ty v old List.mem_cons_self
      have he := bsonExport_doc env info mk ty v d hd hz ha ht
      refine ⟨bdoc (btree d) :: docs, ?_, ?_⟩
      · rw [List.map_cons, List.map_cons, h1, he]
      · obtain ⟨bytes, p, f1, f2, -⟩ := C27_round_trip_partial env info mk cfg ty v old d [] hg hnf hm hx hd hs ho hz ht hk ha hf hl
        rw [he] at f1
        cases f1
        rw [List.append_nil] at f2
        rw [List.map_cons, List.map_cons, List.flatten_cons, List.append_assoc]
        refine .cons ⟨bkeys d hk, bvalid d, hl⟩ (base_root env mk ty v d hd ht).1 ?_ h2
        unfold bsonImport
        rw [f2]
        rfl
  obtain ⟨docs, h1, h2⟩ := key
  exact ⟨docs, h1, fun i h => C81_documents_in_sequence env cfg post _ _ _ h2 i h⟩

set_option maxRecDepth 10000 in
/-- non-vacuity: the sample twice, and then a `bool`. -/
example : ∃ docs : List Bytes, List.map (fun x => bsonExport bEnv bInfo [] x.1 x.2.1) [(.named 1, bNode, bEnv.dflt 1), (.named 1, bNode, bEnv.dflt 1), (.bool, .bool true, .bool false)] = docs.map Res.ok ∧
    ∀ i, Stands (docs.flatten ++ b!"tail") i → ∃ i', bsonImportAll bEnv ⟨.Weak, []⟩ [(.named 1, bEnv.dflt 1), (.named 1, bEnv.dflt 1), (.bool, .bool false)] i =
      .ok ([bNode, bNode, .bool true], i') ∧ Stands b!"tail" i' := by
  refine C81_exports_in_sequence bEnv bInfo [] ⟨.Weak, []⟩ bEnv_good bEnv_noFilter rfl (by simp) b!"tail" [(.named 1, bNode, bEnv.dflt 1), (.named 1, bNode, bEnv.dflt 1), (.bool, .bool true, .bool false)] ?_
  intro ty v old h
  simp only [List.mem_cons, Prod.mk.injEq, List.not_mem_nil, or_false] at h
  have hn : ∃ d, docOf bEnv [] (.named 1) bNode = .ok d ∧ Storable bEnv [] (.named 1) bNode ∧ Fresh bEnv (.named 1) (bEnv.dflt 1) ∧ SizeKnown bEnv bInfo false (.named 1) bNode ∧ TopLevel bEnv (.named 1) bNode ∧
      AllKeys (fun k => (0x00 : Byte) ∉ k) d ∧ AllScalars plainAtom d ∧ AllScalars doubleAtom d ∧ (bdoc (btree d)).length < 2 ^ 31 :=
    ⟨_, bNode_doc, bNode_storable, bEnv_good.fresh 1, bNode_sizeKnown, bNode_top, bNode_keys, bNode_plain, bNode_doubles, bNode_length⟩
  rcases h with ⟨rfl, rfl, rfl⟩ | ⟨rfl, rfl, rfl⟩ | ⟨rfl, rfl, rfl⟩
  · exact hn
  · exact hn
  · refine ⟨.scalar (.bool true), by simp [docOf], by simp [Storable], by simp [Fresh], by simp [SizeKnown], by simp [TopLevel], trivial, ?_, ?_, by decide⟩
    · simp [AllScalars, plainAtom]
    · simp [AllScalars, doubleAtom]

/-! ### C82 -/

/-- C82. Whatever bytes are ahead in a stream, if a BSON import succeeds, it has taken some first part of them, the stream is in a good state in
front of the others, and those had no influence: with the same first part ahead and anything else, or nothing, behind it, the import gives the
same value and leaves the stream in front of that. All bytes, all types, all modes, all kinds of streams. -/
theorem C82_only_what_it_takes (env : Env) (cfg : Cfg) (ty : Ty) (old v : Val) (ahead : Bytes) (i i' : IStr) (hi : Stands ahead i)
    (h : bsonStreamImport env cfg ty old i = .ok (v, i')) :
    ∃ taken left, ahead = taken ++ left ∧ Stands left i' ∧
      ∀ other j, Stands (taken ++ other) j → ∃ j', bsonStreamImport env cfg ty old j = .ok (v, j') ∧ Stands other j' :=
  bson_stream_ahead env cfg ty old hi h

/-- C82, documents that were cut short. A stream that ends before the document does: no import succeeds, in no mode, wherever the cut is. -/
theorem C82_cut_documents (env : Env) (cfg : Cfg) (ty : Ty) (old : Val) (t : BTree) (h : Storable32 t) (hb : bsonBase env ty = BsonP.rootKind t)
    (n : Nat) (hn : n < (bdoc t).length) (i : IStr) (hi : Stands ((bdoc t).take n) i) (v : Val) (i' : IStr) :
    bsonStreamImport env cfg ty old i ≠ .ok (v, i') := by
  intro e
  obtain ⟨c, r, h1, -, h2⟩ := bson_stream_ahead env cfg ty old hi e
  have hd : bdoc t = c ++ (r ++ (bdoc t).drop n) := by rw [← List.append_assoc, ← h1, List.take_append_drop]
  have hs : Stands (c ++ (r ++ (bdoc t).drop n)) (IStr.ofBytes (bdoc t)) := by rw [← hd]; exact stands_ofBytes _ _
  obtain ⟨j', f, hj⟩ := h2 _ _ hs
  have hs2 : Stands (bdoc t ++ []) (IStr.ofBytes (bdoc t)) := by rw [List.append_nil]; exact stands_ofBytes _ _
  rcases bson_stream_doc env cfg t h [] ty hb old hs2 with ⟨v2, i2, -, e2, k⟩ | ⟨x, -, e2⟩ | ⟨-, e2⟩
  · rw [f] at e2
    cases e2
    have := hj.rest.symm.trans k.rest
    have := congrArg List.length this
    simp only [List.length_append, List.length_drop, List.length_nil] at this
    omega
  · rw [f] at e2; cases e2
  · rw [f] at e2; cases e2

/-- non-vacuity: the sample, then something else: the import succeeds and leaves it. -/
example : ∃ v i' taken left, bsonStreamImport bEnv ⟨.Weak, []⟩ (.named 1) (bEnv.dflt 1) (IStr.ofBytes (bdoc (btree bNodeDoc) ++ b!"tail") false) = .ok (v, i') ∧
    bdoc (btree bNodeDoc) ++ b!"tail" = taken ++ left ∧ Stands left i' ∧ left = b!"tail" := by
  have hs := stands_ofBytes (bdoc (btree bNodeDoc) ++ b!"tail") false
  obtain ⟨bytes, p, h1, h2, h3⟩ := C27_round_trip_partial bEnv bInfo [] ⟨.Weak, []⟩ (.named 1) bNode (bEnv.dflt 1) bNodeDoc b!"tail" bEnv_good bEnv_noFilter rfl (by simp) bNode_doc
    bNode_storable (bEnv_good.fresh 1) bNode_sizeKnown bNode_top bNode_keys bNode_plain bNode_doubles bNode_length
  rw [C26_sizes_partial bEnv bInfo [] _ _ _ bNode_doc bNode_sizeKnown bNode_plain bNode_top] at h1
  cases h1
  have h4 : bsonImport bEnv ⟨.Weak, []⟩ (.named 1) (bEnv.dflt 1) (bdoc (btree bNodeDoc) ++ b!"tail") = .ok bNode := by unfold bsonImport; rw [h2]; rfl
  rcases C80_documents bEnv ⟨.Weak, []⟩ (.named 1) (bEnv.dflt 1) (btree bNodeDoc) b!"tail" ⟨bkeys _ bNode_keys, bvalid _, bNode_length⟩ rfl
    _ hs with ⟨v, i', e1, e2, e3⟩ | ⟨e, e1, -⟩ | ⟨e1, -⟩
  · obtain ⟨c, r, k1, k2, -⟩ := C82_only_what_it_takes bEnv ⟨.Weak, []⟩ (.named 1) (bEnv.dflt 1) v _ _ i' hs e2
    exact ⟨v, i', c, r, e2, k1, k2, k2.rest.symm.trans e3.rest⟩
  · rw [h4] at e1; cases e1
  · rw [h4] at e1; cases e1

set_option maxRecDepth 10000 in
theorem bNode_length_pos : 0 < (bdoc (btree bNodeDoc)).length := by decide

/-- non-vacuity: the sample without its last byte. -/
example (v : Val) (i' : IStr) : bsonStreamImport bEnv ⟨.Weak, []⟩ (.named 1) (bEnv.dflt 1) (IStr.ofBytes ((bdoc (btree bNodeDoc)).take ((bdoc (btree bNodeDoc)).length - 1))) ≠ .ok (v, i') :=
  C82_cut_documents bEnv ⟨.Weak, []⟩ (.named 1) (bEnv.dflt 1) (btree bNodeDoc) ⟨bkeys _ bNode_keys, bvalid _, bNode_length⟩ rfl _ (Nat.sub_lt bNode_length_pos (by decide)) _ (stands_ofBytes _ _) v i'

end Thors.Props
