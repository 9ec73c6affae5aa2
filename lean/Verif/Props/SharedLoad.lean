import Verif.Proofs.SharedFormats
import Verif.Props.SharedBson
import Verif.Props.Ends
/-
C111–C114: importing types with shared pointers from documents nobody wrote with the exporter.
-/
namespace Thors.Props
open Thors Spec StrIn

/-! ### C111 -/

section
variable (S : SEnv) (D : DefaultsTyped S.env) (cfg : Cfg) (t : STy) (v : SVal) (st : Loaded)
include D

/-- C111, JSON from a string. Whatever the bytes are: if the import succeeds, the new objects can be given types such that the root has the
type asked for, every object is a value of its type, every shared pointer is null or points to an object of exactly the type it was
declared for, and no object can be reached from itself (so everything is released when the last pointer goes). -/
theorem C111_json (conv : Bool) (b : Bytes) (h : sload JsonP.ops S cfg t (JsonP.ofBytes b conv) = .ok (v, st)) : WellBuilt S t v st.heap :=
  sload_safe json_ranged D h

/-- The same where numbers out of range leave anything in the variables they are read into (C09). -/
theorem C111_json_any (j : Indet) (hj : j.Ranged) (conv : Bool) (b : Bytes) (h : sload (opsJ j) S cfg t (JsonP.ofBytes b conv) = .ok (v, st)) :
    WellBuilt S t v st.heap := sload_safe (json_ranged_indet j hj) D h

/-- C111, JSON from a stream. -/
theorem C111_json_stream (conv : Bool) (i : IStr) (h : sload JsonS.ops S cfg t (JsonS.ofStream i conv) = .ok (v, st)) : WellBuilt S t v st.heap :=
  sload_safe stream_ranged D h

/-- C111, BSON from a string and from a stream. -/
theorem C111_bson (b : Bytes) (h : sload BsonP.ops S cfg t (BsonP.ofBytes (sbase S t) b) = .ok (v, st)) : WellBuilt S t v st.heap :=
  sload_safe bson_ranged D h
theorem C111_bson_stream (i : IStr) (h : sload BsonS.ops S cfg t (BsonS.ofStream (sbase S t) i) = .ok (v, st)) : WellBuilt S t v st.heap :=
  sload_safe bsonS_ranged D h

/-- C111, YAML, whatever libyaml reports. -/
theorem C111_yaml (es : List YEv) (h : sload YamlP.ops S cfg t (YamlP.ofEvents es) = .ok (v, st)) : WellBuilt S t v st.heap :=
  sload_safe yaml_ranged D h
end

/-- `struct Item { int id; std::shared_ptr<Item> next; }` beside the classes of C83. -/
def itEnv : SEnv where
  env := env83 true
  classes
    | 0 => [(b!"id", .plain Samples.int32), (b!"next", .shared (.cls 0))]
    | _ => []

theorem itEnv_item : itEnv.classes 0 = [(b!"id", .plain Samples.int32), (b!"next", .shared (.cls 0))] := rfl
theorem jsem_key (k : JStr) : (jsem true).key k = k.dec := rfl

theorem itEnv_typed : DefaultsTyped itEnv.env := by
  intro i
  match i with
  | 0 => simp [itEnv, env83, HasType, OwnHave, ParentsHave, HaveType, DictHas, InSeqOrder, Ty.vec]
  | 1 => simp [itEnv, env83, HasType, OwnHave, ParentsHave, HaveType, DictHas, InSeqOrder, Ty.vec]
  | 2 => simp [itEnv, env83, HasType]
  | 3 => simp [itEnv, env83, HasType, OwnHave, ParentsHave, HaveType, DictHas, InSeqOrder, Ty.vec]
  | n + 4 => simp [itEnv, env83, HasType, OwnHave, ParentsHave, HaveType, InSeqOrder]; exact zero_value f64 false

/-- `[{"sharedPtrName":7,"data":{"id":1,"next":null}},{"data":{"id":2,"next":{"sharedPtrName":7}},"sharedPtrName":3},null,{"sharedPtrName":7}]`,
for `std::vector<std::shared_ptr<Item>>`. -/
def items : JTree := .arr [
  .obj [(Samples.jstr infoName, Samples.num 7), (Samples.jstr infoData, .obj [(Samples.jstr b!"id", Samples.num 1), (Samples.jstr b!"next", .scalar .null)])],
  .obj [(Samples.jstr infoData, .obj [(Samples.jstr b!"id", Samples.num 2), (Samples.jstr b!"next", .obj [(Samples.jstr infoName, Samples.num 7)])]),
    (Samples.jstr infoName, Samples.num 3)],
  .scalar .null,
  .obj [(Samples.jstr infoName, Samples.num 7)]]

theorem items_text : Samples.text items =
    b!"[{\"sharedPtrName\":7,\"data\":{\"id\":1,\"next\":null}},{\"data\":{\"id\":2,\"next\":{\"sharedPtrName\":7}},\"sharedPtrName\":3},null,{\"sharedPtrName\":7}]" := by
  decide +kernel

/-- The two objects that are made, and the pointers to them. -/
def itemsRoot : SVal := .list [.handle 0 (some 0), .handle 0 (some 1), .handle 0 none, .handle 0 (some 0)]
def itemsHeap : List SVal := [.obj [.plain (.int 1), .handle 0 none], .obj [.plain (.int 2), .handle 0 (some 0)]]

theorem items_imp (cfg : Cfg) (hx : cfg.strict ≠ .Exact) :
    impS (jsem true) itEnv cfg items shTy ⟨[], []⟩ = .ok (itemsRoot, ⟨[(3, .cls 0, some 1), (7, .cls 0, some 0)], itemsHeap⟩) := by
  simp [items, shTy, itEnv, impS, impS.elems, impS.info, impS.members, smemberAt, jsem, Samples.jstr, Samples.num, infoName, infoData, number, Tr.isNull, impPlain, imp, impScalar,
    Samples.int32, pointer, hx, itemsRoot, itemsHeap, JStr.val, intmax, List.lookup, InRange, Handle.deleted]

/-- C111 is about something: that text is imported, and the result is well built. -/
example (cfg : Cfg) (hx : cfg.strict ≠ .Exact) : ∃ st, sload JsonP.ops itEnv cfg shTy (JsonP.ofBytes (Samples.text items) true) = .ok (itemsRoot, st) ∧
    st.heap = itemsHeap ∧ WellBuilt itEnv shTy itemsRoot st.heap := by
  have h := sload_json itEnv cfg shTy (Samples.plain_doc items (by decide)) (conv := true) (.inr (by rw [items_imp cfg hx]; simp))
  rw [items_imp cfg hx] at h
  exact ⟨_, h, rfl, C111_json itEnv itEnv_typed cfg shTy _ _ true _ h⟩

/-! ### C112 -/

section
variable (S : SEnv) (cfg : Cfg) (t : STy)

/-- C112, JSON from a string: importing a document is the function `impS` of its tree, however it is laid out. (The side condition
only excludes undefined behaviour in the mode that skips.) -/
theorem C112_json (conv : Bool) (v : JTree) (b : Bytes) (hd : JDoc codePair v b)
    (hc : (cfg.strict = .Weak → v.skippable (jsem conv) = true) ∨ impS (jsem conv) S cfg v t ⟨[], []⟩ ≠ .ub) :
    sload JsonP.ops S cfg t (JsonP.ofBytes b conv) = impS (jsem conv) S cfg v t ⟨[], []⟩ := sload_json S cfg t hd hc

/-- C112, JSON from a stream, with anything behind the document. -/
theorem C112_json_stream (conv : Bool) (v : JTree) (w b post : Bytes) (hw : Ws w) (hv : JText codePair v b) (hp : Ends v post) (i : IStr) (hi : OkS (w ++ b ++ post) i)
    (hc : (cfg.strict = .Weak → v.skippable (jssem conv) = true) ∨ impS (jssem conv) S cfg v t ⟨[], []⟩ ≠ .ub) :
    sload JsonS.ops S cfg t (JsonS.ofStream i conv) = impS (jssem conv) S cfg v t ⟨[], []⟩ := sload_json_stream S cfg t hw hv hp hi hc

/-- C112, BSON from a string, with anything behind the document. -/
theorem C112_bson (v : BTree) (h : Storable32 v) (rest : Bytes) (hb : sbase S t = BsonP.rootKind v) :
    sload BsonP.ops S cfg t (BsonP.ofBytes (sbase S t) (bdoc v ++ rest)) = impS bsem S cfg v t ⟨[], []⟩ := sload_bson S cfg t h rest hb

/-- C112, BSON from a stream. -/
theorem C112_bson_stream (v : BTree) (h : Storable32 v) (rest : Bytes) (hb : sbase S t = BsonP.rootKind v) (i : IStr) (hi : Stands (bdoc v ++ rest) i) :
    sload BsonS.ops S cfg t (BsonS.ofStream (sbase S t) i) = impS bsem S cfg v t ⟨[], []⟩ := sload_bson_stream S cfg t h rest hb hi

/-- C112, YAML. -/
theorem C112_yaml (v : YTree) (es : List YEv) :
    sload YamlP.ops S cfg t (YamlP.ofEvents ([.streamStart, .docStart] ++ yevents v ++ .docEnd :: es)) = impS ysem S cfg v t ⟨[], []⟩ := sload_yaml S cfg t v es

/-- The order of the two members of a handle does not matter. -/
theorem C112_order {K X : Type} (sem : ScalarSem K X) (st : Loaded) (kn kd : K) (x y : Tr K X) (n : Int) (hn : sem.key kn = infoName) (hd : sem.key kd = infoData)
    (hx : number sem x = .ok n) : impS sem S cfg (.obj [(kn, x), (kd, y)]) (.shared t) st = impS sem S cfg (.obj [(kd, y), (kn, x)]) (.shared t) st := by
  have hne : ¬ (infoData = infoName) := by decide
  have h1 : (([infoData, infoName] : List Bytes).contains infoName && ([infoData, infoName] : List Bytes).contains infoData) = true := by decide
  have h2 : (([infoName, infoData] : List Bytes).contains infoName && ([infoName, infoData] : List Bytes).contains infoData) = true := by decide
  simp only [impS, impS.info, hn, hd, hx, hne, if_true, if_false, Res.ok_bind, h1, h2, Bool.true_eq_false, and_false, Handle.deleted]

/-- A handle without data is the pointer of that type that was last imported under the number, if there is one; otherwise, and in Exact
mode, it is an error. -/
theorem C112_reference {K X : Type} (sem : ScalarSem K X) (st : Loaded) (k : K) (x : Tr K X) (n : Int) (hk : sem.key k = infoName) (hx : number sem x = .ok n) :
    impS sem S cfg (.obj [(k, x)]) (.shared t) st =
      if cfg.strict = .Exact then throwStd else
        match st.saved.lookup n with
        | some (u, target) => if u = t then .ok (.handle 0 target, st) else throwStd
        | none => throwStd := by
  have h1 : (([infoName] : List Bytes).contains infoName && ([infoName] : List Bytes).contains infoData) = false := by decide
  simp only [impS, impS.info, hk, hx, if_true, Res.ok_bind, h1, and_true, pointer]
  rfl

/-- A handle with data is a pointer to a new object with these data, behind all objects there are, which is then known under the number,
whatever the number stood for before. -/
theorem C112_object {K X : Type} (sem : ScalarSem K X) (st st' : Loaded) (kn kd : K) (x y : Tr K X) (n : Int) (v : SVal) (hn : sem.key kn = infoName) (hd : sem.key kd = infoData)
    (hx : number sem x = .ok n) (hy : y.isNull sem = false) (hv : impS sem S cfg y t st = .ok (v, st')) :
    impS sem S cfg (.obj [(kn, x), (kd, y)]) (.shared t) st =
      .ok (.handle 0 (some st'.heap.length), ⟨(n, t, some st'.heap.length) :: st'.saved, st'.heap ++ [v]⟩) := by
  have hne : ¬ (infoData = infoName) := by decide
  have h1 : (([infoData, infoName] : List Bytes).contains infoName && ([infoData, infoName] : List Bytes).contains infoData) = true := by decide
  simp only [impS, impS.info, hn, hd, hx, hne, if_true, if_false, Res.ok_bind, h1, Bool.true_eq_false, and_false, hy, Bool.false_eq_true, Handle.deleted, hv, pointer]
end

/-- C112 for the text above, also with the members in another order, as `items` has them. -/
example : sload JsonP.ops itEnv ⟨.Weak, []⟩ shTy (JsonP.ofBytes (Samples.text items) true) =
    .ok (itemsRoot, ⟨[(3, .cls 0, some 1), (7, .cls 0, some 0)], itemsHeap⟩) :=
  (C112_json itEnv ⟨.Weak, []⟩ shTy true items _ (Samples.plain_doc items (by decide)) (.inr (by rw [items_imp _ (by decide)]; simp))).trans (items_imp _ (by decide))

/-! ### C113 -/

/-- The full property for JSON: a document whose parts without shared pointers, numbers and skipped parts are no problem by themselves
leads to no undefined behaviour. -/
def C113_full (S : SEnv) (cfg : Cfg) (conv : Bool) : Prop :=
  ∀ t v b, JDoc codePair v b → Defined (jsem conv) S cfg v t → sload JsonP.ops S cfg t (JsonP.ofBytes b conv) ≠ .ub

section
variable (S : SEnv) (cfg : Cfg) (t : STy)

section
variable (hx : cfg.strict = .Exact)
include hx

/-- C113 in Exact mode: whatever the bytes, the import comes to an end and is defined (`j`: C09). Missing: the other modes, for which
it is false. -/
theorem C113_json_exact_partial (j : Indet) (hT : SSoundTypes S true false) (hS : SSound S.env true false t) (b : Bytes) (conv : Bool) :
    sload (opsJ j) S cfg t (JsonP.ofBytes b conv) ≠ .ub := sload_json_ends S cfg t hx j hT hS b conv

/-- From a stream, whose text does not break off behind a backslash (C107). -/
theorem C113_json_stream_exact_partial (hT : SSoundTypes S true false) (hS : SSound S.env true false t) (i : IStr) (hi : i.pos ≤ i.data.length)
    (hw : i.data.getLast? ≠ some 0x5C) (conv : Bool) : sload JsonS.ops S cfg t (JsonS.ofStream i conv) ≠ .ub := sload_json_stream_ends S cfg t hx hT hS i hi hw conv

/-- BSON (`j`: C106). -/
theorem C113_bson_exact_partial (j : BStrIndet) (hT : SSoundTypes S true true) (hS : SSound S.env true true t) (b : Bytes) :
    sload (BStrJ.ops j) S cfg t (BsonP.ofBytes (sbase S t) b) ≠ .ub := sload_bson_ends S cfg t hx j hT hS b _
theorem C113_bson_stream_exact_partial (j : BIndet) (hT : SSoundTypes S true true) (hS : SSound S.env true true t) (i : IStr) :
    sload (BJ.ops j) S cfg t (BsonS.ofStream (sbase S t) i) ≠ .ub := sload_bson_stream_ends S cfg t hx j hT hS i _

/-- YAML, whatever libyaml reports. -/
theorem C113_yaml_exact_partial (hT : SSoundTypes S true true) (hS : SSound S.env true true t) (es : List YEv) (hc : Closes [] es) :
    sload YamlP.ops S cfg t (YamlP.ofEvents es) ≠ .ub := sload_yaml_ends S cfg t hx hT hS es hc
end

/-- C113 in every mode for documents whose handles say their numbers, provided that the parts without shared pointers, the numbers and
what is skipped are no problem by themselves. Missing: handles without numbers. -/
theorem C113_json_numbered_partial (conv : Bool) (v : JTree) (b : Bytes) (hd : JDoc codePair v b) (h : Defined (jsem conv) S cfg v t) (hn : Numbered (jsem conv) S v t) :
    sload JsonP.ops S cfg t (JsonP.ofBytes b conv) ≠ .ub := by
  have := impS_defined v t ⟨[], []⟩ h hn
  rwa [← sload_json S cfg t hd (.inr this)] at this

theorem C113_json_stream_numbered_partial (conv : Bool) (v : JTree) (w b post : Bytes) (hw : Ws w) (hv : JText codePair v b) (hp : Ends v post) (i : IStr)
    (hi : OkS (w ++ b ++ post) i) (h : Defined (jssem conv) S cfg v t) (hn : Numbered (jssem conv) S v t) : sload JsonS.ops S cfg t (JsonS.ofStream i conv) ≠ .ub := by
  have := impS_defined v t ⟨[], []⟩ h hn
  rwa [← sload_json_stream S cfg t hw hv hp hi (.inr this)] at this

theorem C113_bson_numbered_partial (v : BTree) (hs : Storable32 v) (rest : Bytes) (hb : sbase S t = BsonP.rootKind v) (h : Defined bsem S cfg v t) (hn : Numbered bsem S v t) :
    sload BsonP.ops S cfg t (BsonP.ofBytes (sbase S t) (bdoc v ++ rest)) ≠ .ub ∧
    ∀ i, Stands (bdoc v ++ rest) i → sload BsonS.ops S cfg t (BsonS.ofStream (sbase S t) i) ≠ .ub := by
  have := impS_defined v t ⟨[], []⟩ h hn
  exact ⟨by rwa [sload_bson S cfg t hs rest hb], fun i hi => by rwa [sload_bson_stream S cfg t hs rest hb hi]⟩

theorem C113_yaml_numbered_partial (v : YTree) (es : List YEv) (h : Defined ysem S cfg v t) (hn : Numbered ysem S v t) :
    sload YamlP.ops S cfg t (YamlP.ofEvents ([.streamStart, .docStart] ++ yevents v ++ .docEnd :: es)) ≠ .ub := by
  rw [sload_yaml]
  exact impS_defined v t ⟨[], []⟩ h hn
end

theorem itEnv_sound : SSoundTypes itEnv true false where
  plain := env83_sound true
  cls c m hm := by
    match c with
    | 0 =>
      simp only [itEnv, List.mem_cons, List.not_mem_nil, or_false] at hm
      rcases hm with rfl | rfl <;> simp [SSound, Sound, Samples.int32]
    | n + 1 => simp [itEnv] at hm

/-- C113 in Exact mode, for any bytes and a vector of shared pointers. -/
example (j : Indet) (b : Bytes) (conv : Bool) : sload (opsJ j) itEnv ⟨.Exact, []⟩ shTy (JsonP.ofBytes b conv) ≠ .ub :=
  C113_json_exact_partial itEnv _ shTy rfl j itEnv_sound (by simp [shTy, SSound, loosely]) b conv

/-- C113 in the other modes, for the text above. -/
example (cfg : Cfg) : sload JsonP.ops itEnv cfg shTy (JsonP.ofBytes (Samples.text items) true) ≠ .ub := by
  refine C113_json_numbered_partial itEnv cfg shTy true items _ (Samples.plain_doc items (by decide)) ?_ ?_
  · simp [items, shTy, itEnv_item, defined_plain, defined_scalar, defined_vec, defined_cls, defined_shared, defined_elems_nil, defined_elems_cons, defined_members_nil,
      defined_members_cons, defined_info_nil, defined_info_cons, smemberAt, jsem_key, Samples.jstr, Samples.num, infoName, infoData, number, Tr.isNull, imp,
      impScalar, Samples.int32, JStr.val, intmax, InRange]
    simp [jsem, InRange]
  · simp [items, shTy, itEnv_item, Numbered, handles_scalar, handles_plain, handles_vec, handles_cls, handles_shared, handles_elems_nil, handles_elems_cons, handles_members_nil,
      handles_members_cons, handles_info_nil, handles_info_cons, times_cons, times_nil, smemberAt, jsem_key, Samples.jstr, Samples.num, infoName, infoData, JStr.val]

/-- C113 is false: `{"data":{"id":1}}`, and even `{}`, for a `std::shared_ptr<Item>`: the number is used although it was never given a
value (Serialize.tpp:541). -/
theorem C113_false (cfg : Cfg) (hx : cfg.strict ≠ .Exact) : ¬ C113_full itEnv cfg true ∧
    sload JsonP.ops itEnv cfg (.shared (.cls 0)) (JsonP.ofBytes b!"{}" true) = .ub ∧
    sload JsonP.ops itEnv cfg (.shared (.cls 0)) (JsonP.ofBytes b!"{\"data\":{\"id\":1}}" true) = .ub := by
  have hd : JDoc codePair (.obj []) b!"{}" := Samples.plain_doc (.obj []) (by decide)
  have h : sload JsonP.ops itEnv cfg (.shared (.cls 0)) (JsonP.ofBytes b!"{}" true) = .ub := by
    refine (C112_json itEnv cfg _ true (.obj []) b!"{}" hd (.inl fun _ => by decide)).trans ?_
    simp [impS, impS.info, hx, pointer]
  refine ⟨fun hf => hf _ _ _ hd (by rw [defined_shared, defined_info_nil]; trivial) h, h, ?_⟩
  refine (C112_json itEnv cfg _ true (.obj [(Samples.jstr infoData, .obj [(Samples.jstr b!"id", Samples.num 1)])]) _ (Samples.plain_doc _ (by decide)) (.inl fun _ => by decide)).trans ?_
  simp [itEnv, impS, impS.info, impS.members, smemberAt, jsem, Samples.jstr, Samples.num, infoName, infoData, Tr.isNull, impPlain, imp, impScalar,
    Samples.int32, pointer, hx, JStr.val, InRange, Handle.deleted]

/-! ### C114 -/

section
variable (S : SEnv) (D : DefaultsTyped S.env) (cfg : Cfg) (t : STy) (v : SVal) (st : Loaded)
include D

/-- C114, JSON from a string. Whatever the bytes are: if the import succeeds, the objects that were made for shared pointers and were not
deleted on the way are exactly those that were handed to a shared pointer. So none is lost, and none that a pointer has is deleted. -/
theorem C114_json (conv : Bool) (b : Bytes) (h : sload JsonP.ops S cfg t (JsonP.ofBytes b conv) = .ok (v, st)) : AllOwned st :=
  sload_owned json_ranged D h

/-- The same where numbers out of range leave anything in the variables they are read into (C09). -/
theorem C114_json_any (j : Indet) (hj : j.Ranged) (conv : Bool) (b : Bytes) (h : sload (opsJ j) S cfg t (JsonP.ofBytes b conv) = .ok (v, st)) :
    AllOwned st := sload_owned (json_ranged_indet j hj) D h

/-- C114, JSON from a stream. -/
theorem C114_json_stream (conv : Bool) (i : IStr) (h : sload JsonS.ops S cfg t (JsonS.ofStream i conv) = .ok (v, st)) : AllOwned st :=
  sload_owned stream_ranged D h

/-- C114, BSON from a string and from a stream. -/
theorem C114_bson (b : Bytes) (h : sload BsonP.ops S cfg t (BsonP.ofBytes (sbase S t) b) = .ok (v, st)) : AllOwned st := sload_owned bson_ranged D h
theorem C114_bson_stream (i : IStr) (h : sload BsonS.ops S cfg t (BsonS.ofStream (sbase S t) i) = .ok (v, st)) : AllOwned st := sload_owned bsonS_ranged D h

/-- C114, YAML, whatever libyaml reports. -/
theorem C114_yaml (es : List YEv) (h : sload YamlP.ops S cfg t (YamlP.ofEvents es) = .ok (v, st)) : AllOwned st := sload_owned yaml_ranged D h
end

/-- `{"sharedPtrName":1,"data":{"id":1,"next":null},"data":{"id":2,"next":null}}` -/
def twice : JTree := .obj [(Samples.jstr infoName, Samples.num 1), (Samples.jstr infoData, .obj [(Samples.jstr b!"id", Samples.num 1), (Samples.jstr b!"next", .scalar .null)]),
  (Samples.jstr infoData, .obj [(Samples.jstr b!"id", Samples.num 2), (Samples.jstr b!"next", .scalar .null)])]

/-- C114 is about something: a handle with data twice. The object made of the first data is deleted when the second are read
(Serialize.tpp:503), and only the second object is left, with its owner. -/
example (cfg : Cfg) : ∃ st, sload JsonP.ops itEnv cfg (.shared (.cls 0)) (JsonP.ofBytes (Samples.text twice) true) = .ok (.handle 0 (some 1), st) ∧
    st.heap = [.unset, .obj [.plain (.int 2), .handle 0 none]] ∧ AllOwned st := by
  have h : sload JsonP.ops itEnv cfg (.shared (.cls 0)) (JsonP.ofBytes (Samples.text twice) true) =
      .ok (.handle 0 (some 1), ⟨[(1, .cls 0, some 1)], [.unset, .obj [.plain (.int 2), .handle 0 none]]⟩) := by
    refine (C112_json itEnv cfg _ true twice _ (Samples.plain_doc twice (by decide)) (.inl fun _ => by decide)).trans ?_
    simp [twice, itEnv, impS, impS.info, impS.members, smemberAt, jsem, Samples.jstr, Samples.num, infoName, infoData, number, Tr.isNull, impPlain, imp, impScalar,
      Samples.int32, pointer, JStr.val, intmax, InRange, Handle.deleted]
  exact ⟨_, h, rfl, C114_json itEnv itEnv_typed cfg _ _ _ true _ h⟩

end Thors.Props
