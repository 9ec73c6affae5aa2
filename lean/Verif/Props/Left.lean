import Verif.Proofs.LeftLink
import Verif.Proofs.LeftInst
import Verif.Proofs.TypedOps
import Verif.Props.Typed
import Verif.Props.Touch
/-
C98: what a failed import leaves.
-/
namespace Thors.Props
open Thors Thors.Spec StrIn

/-- Nothing in the model of the object after an import is made up: if the import returns a value, it is that value and nothing dangles; and the object is
known whenever the call does nothing undefined. -/
theorem C98_object (env : Env) (cfg : Cfg) (pol : Policy) (m : Mess JsonP) (conv : Bool) (ty : Ty) (old : Val) (t : Bytes)
    (h : (jsonExtract env cfg pol conv ty old t).fate ≠ .ub) :
    ∃ w d, objectAfter JsonP.ops env cfg m ty old (PI.init (JsonP.ofBytes t conv)) = .ok (w, d) ∧
      ∀ r v, (jsonExtract env cfg pol conv ty old t).fate = .returned r (some v) → w = v ∧ d = false :=
  extract_after JsonP.inOps env cfg pol m ty old _ h

/-- C98. JSON from a string, whatever the text: the object is then a value of its type, and if it has no plain pointers nothing in it dangles. -/
theorem C98_json_partial (env : Env) (D : DefaultsTyped env) (cfg : Cfg) (m : Mess JsonP) (conv : Bool) (ty : Ty) (old : Val) (ho : HasType env ty old) (t : Bytes)
    (w : Val) (d : Bool) (h : objectAfter JsonP.ops env cfg m ty old (PI.init (JsonP.ofBytes t conv)) = .ok (w, d)) :
    HasType env ty w ∧ ((∀ t, m.raw t = false) → d = false) :=
  objectAfter_typed json_ranged D cfg m ty old _ ho _ h

/-- C98. JSON from a stream. -/
theorem C98_json_stream_partial (env : Env) (D : DefaultsTyped env) (cfg : Cfg) (m : Mess JsonS) (conv : Bool) (ty : Ty) (old : Val) (ho : HasType env ty old) (i : IStr)
    (w : Val) (d : Bool) (h : objectAfter JsonS.ops env cfg m ty old (PI.init (JsonS.ofStream i conv)) = .ok (w, d)) :
    HasType env ty w ∧ ((∀ t, m.raw t = false) → d = false) :=
  objectAfter_typed stream_ranged D cfg m ty old _ ho _ h

/-- C98. BSON from a string. -/
theorem C98_bson_partial (env : Env) (D : DefaultsTyped env) (cfg : Cfg) (m : Mess BsonP) (ty : Ty) (old : Val) (ho : HasType env ty old) (t : Bytes)
    (w : Val) (d : Bool) (h : objectAfter BsonP.ops env cfg m ty old (PI.init (BsonP.ofBytes (bsonBase env ty) t)) = .ok (w, d)) :
    HasType env ty w ∧ ((∀ t, m.raw t = false) → d = false) :=
  objectAfter_typed bson_ranged D cfg m ty old _ ho _ h

/-- C98. BSON from a stream. -/
theorem C98_bson_stream_partial (env : Env) (D : DefaultsTyped env) (cfg : Cfg) (m : Mess BsonS) (ty : Ty) (old : Val) (ho : HasType env ty old) (i : IStr)
    (w : Val) (d : Bool) (h : objectAfter BsonS.ops env cfg m ty old (PI.init (BsonS.ofStream (bsonBase env ty) i)) = .ok (w, d)) :
    HasType env ty w ∧ ((∀ t, m.raw t = false) → d = false) :=
  objectAfter_typed bsonS_ranged D cfg m ty old _ ho _ h

/-- C98. YAML, whatever events libyaml produces. -/
theorem C98_yaml_partial (env : Env) (D : DefaultsTyped env) (cfg : Cfg) (m : Mess YamlP) (ty : Ty) (old : Val) (ho : HasType env ty old) (es : List YEv)
    (w : Val) (d : Bool) (h : objectAfter YamlP.ops env cfg m ty old (PI.init (YamlP.ofEvents es)) = .ok (w, d)) :
    HasType env ty w ∧ ((∀ t, m.raw t = false) → d = false) :=
  objectAfter_typed yaml_ranged D cfg m ty old _ ho _ h

/-- C98, with C83: for types without fixed size containers, vectors of pointers and classes registered under a foreign base there is such an object after
every call, whatever the text. -/
theorem C98_any_text_partial (j : Indet) (hj : j.Ranged) (env : Env) (hT : SoundTypes env true false) (D : DefaultsTyped env) (cfg : Cfg) (pol : Policy) (m : Mess JsonP)
    (conv : Bool) (ty : Ty) (hS : Sound env true false ty) (old : Val) (hO : Shaped env ty old) (ho : HasType env ty old) (t : Bytes) :
    ∃ w d, objectAfter (opsJ j) env cfg m ty old (PI.init (JsonP.ofBytes t conv)) = .ok (w, d) ∧ HasType env ty w ∧ ((∀ t, m.raw t = false) → d = false) ∧
      ∀ r v, (jsonExtractJ j env cfg pol conv ty old t).fate = .returned r (some v) → w = v := by
  obtain ⟨w, d, h, hv⟩ := extract_after { JsonP.inOps with ops := opsJ j } env cfg pol m ty old (PI.init (JsonP.ofBytes t conv))
    (C83_ends_partial j env hT cfg pol conv ty old t hS hO)
  exact ⟨w, d, h, (objectAfter_typed (json_ranged_indet j hj) D cfg m ty old _ ho _ h).1, (objectAfter_typed (json_ranged_indet j hj) D cfg m ty old _ ho _ h).2,
    fun r v hr => (hv r v hr).1⟩

/-- C98. What is under a name that does not occur in the text is after the call what it was before, whether it fails or not. JSON from a string; occurring
means behind a quote, and the text has no backslash, so that the names in it are what they look like. -/
theorem C98_json_names (env : Env) (cfg : Cfg) (m : Mess JsonP) (conv : Bool) (ty : Ty) (old : Val) (t k : Bytes) (ht : (0x5C : Byte) ∉ t) (hk : ¬ 0x22 :: k <:+: t)
    (w : Val) (d : Bool) (h : objectAfter JsonP.ops env cfg m ty old (PI.init (JsonP.ofBytes t conv)) = .ok (w, d))
    (p : List Step) (hp : .key k ∈ p) (x : Val) (hx : look env p ty old = some x) : look env p ty w = some x :=
  objectAfter_kept (json_avoids ht hk) cfg m ty old _ ⟨rfl, fun _ => rfl⟩ _ h p x hp hx

/-- C98. JSON from a stream; `i.data` is all there is in the stream. -/
theorem C98_json_stream_names (env : Env) (cfg : Cfg) (m : Mess JsonS) (conv : Bool) (ty : Ty) (old : Val) (i : IStr) (k : Bytes) (ht : (0x5C : Byte) ∉ i.data)
    (hk : ¬ 0x22 :: k <:+: i.data) (w : Val) (d : Bool) (h : objectAfter JsonS.ops env cfg m ty old (PI.init (JsonS.ofStream i conv)) = .ok (w, d))
    (p : List Step) (hp : .key k ∈ p) (x : Val) (hx : look env p ty old = some x) : look env p ty w = some x :=
  objectAfter_kept (stream_avoids ht hk) cfg m ty old (PI.init (JsonS.ofStream i conv)) (show OnText i.data i from rfl) _ h p x hp hx

/-- C98. BSON from a string: names are not escaped, so that any bytes will do. -/
theorem C98_bson_names (env : Env) (cfg : Cfg) (m : Mess BsonP) (ty : Ty) (old : Val) (t k : Bytes) (hk : ¬ k <:+: t)
    (w : Val) (d : Bool) (h : objectAfter BsonP.ops env cfg m ty old (PI.init (BsonP.ofBytes (bsonBase env ty) t)) = .ok (w, d))
    (p : List Step) (hp : .key k ∈ p) (x : Val) (hx : look env p ty old = some x) : look env p ty w = some x :=
  objectAfter_kept (bson_avoids hk) cfg m ty old _ ⟨rfl, List.nil_infix⟩ _ h p x hp hx

/-- C98. BSON from a stream. -/
theorem C98_bson_stream_names (env : Env) (cfg : Cfg) (m : Mess BsonS) (ty : Ty) (old : Val) (i : IStr) (k : Bytes) (hk : ¬ k <:+: i.data)
    (w : Val) (d : Bool) (h : objectAfter BsonS.ops env cfg m ty old (PI.init (BsonS.ofStream (bsonBase env ty) i)) = .ok (w, d))
    (p : List Step) (hp : .key k ∈ p) (x : Val) (hx : look env p ty old = some x) : look env p ty w = some x :=
  objectAfter_kept (bsonS_avoids hk) cfg m ty old (PI.init (BsonS.ofStream (bsonBase env ty) i)) ⟨show OnText i.data i from rfl, List.nil_infix⟩ _ h p x hp hx

/-- C98. YAML: no scalar of the document is the name. -/
theorem C98_yaml_names (env : Env) (cfg : Cfg) (m : Mess YamlP) (ty : Ty) (old : Val) (es : List YEv) (k : Bytes) (hne : k ≠ []) (hk : YEv.scalar k ∉ es)
    (w : Val) (d : Bool) (h : objectAfter YamlP.ops env cfg m ty old (PI.init (YamlP.ofEvents es)) = .ok (w, d))
    (p : List Step) (hp : .key k ∈ p) (x : Val) (hx : look env p ty old = some x) : look env p ty w = some x :=
  objectAfter_kept (yaml_avoids hne) cfg m ty old _ ⟨hk, by simp [PI.init, YamlP.ofEvents]⟩ _ h p x hp hx

/-- What C98 asks of pointers. -/
def C98_claim (env : Env) (cfg : Cfg) (conv : Bool) (m : Mess JsonP) (ty : Ty) (old : Val) (t : Bytes) : Prop :=
  ∀ w d, objectAfter JsonP.ops env cfg m ty old (PI.init (JsonP.ofBytes t conv)) = .ok (w, d) → d = false

/-- A plain pointer to a class with virtual functions that points somewhere is left dangling if the document is an array. -/
theorem C98_dangling (env : Env) (cfg : Cfg) (conv : Bool) (m : Mess JsonP) (b : Nat) (hr : m.raw (.pptr b) = true) (old : Val) (ho : old ≠ .null) :
    objectAfter JsonP.ops env cfg m (.pptr b) old (PI.init (JsonP.ofBytes b!"[]" conv)) = .ok (.null, true) := by
  have hd : m.dangles (.pptr b) old = true := by
    unfold Mess.dangles
    split
    · exact absurd rfl ho
    · exact hr
  have hp : ∃ q, (PI.init (JsonP.ofBytes b!"[]" conv)).getToken JsonP.ops = .ok (.DocStart, q) ∧ ∃ q', pointerE JsonP.ops q = .ok (some .ArrayStart, q') ∧
      polyClassName JsonP.ops (polyMarker env cfg.marker b) (q'.pushBackToken .ArrayStart) = .throw .std := ⟨_, rfl, _, rfl, rfl⟩
  obtain ⟨q, h1, q', h2, h3⟩ := hp
  have h4 : deserE JsonP.ops env cfg m (.pptr b) old q = .ok (.threw .std .null true) := by
    rw [deserE.eq_def]
    dsimp only
    rw [h2, hd]
    show step (polyClassName JsonP.ops (polyMarker env cfg.marker b) (q'.pushBackToken .ArrayStart)) .null true _ = _
    rw [h3]
    rfl
  unfold objectAfter
  rw [h1]
  show Res.bind (deserE JsonP.ops env cfg m (.pptr b) old q) _ = _
  rw [h4]
  rfl

/-- C98 is false: `Vehicle*` that points to a `Bike`, and the document `[]`. -/
theorem C98_false : ∃ env cfg conv m b old t, DefaultsTyped env ∧ HasType env (.pptr b) old ∧ ¬ C98_claim env cfg conv m (.pptr b) old t :=
  ⟨env94, ⟨.Strict, []⟩, true, ⟨fun _ _ => [], fun _ => true, false⟩, 0, .dyn 2 (env94.dflt 2), b!"[]", env94_typed,
    by simp [HasType, env94, OwnHave, ParentsHave, HaveType, Samples.int32, InRange],
    fun h => by cases h _ _ (C98_dangling env94 ⟨.Strict, []⟩ true ⟨fun _ _ => [], fun _ => true, false⟩ 0 rfl _ (by simp [env94]))⟩

/-- `Pair { first = 7, second = { b = 8, x = 9 } }`. -/
def pair98 : Val := .obj [] [.int 7, .obj [.obj [] [.int 8]] [.int 9]]

/-- `{"second":{"x":3},"first":true}` -/
def text98 : Bytes := b!"{\"second\":{\"x\":3},\"first\":true}"

set_option maxRecDepth 10000 in
/-- The import of this text into a `Pair` fails at the end, and leaves it half filled. -/
theorem after98 (m : Mess JsonP) : objectAfter JsonP.ops Samples.env ⟨.Strict, []⟩ m (.named 2) pair98 (PI.init (JsonP.ofBytes text98 true)) =
    .ok (.obj [] [.int 7, .obj [.obj [] [.int 8]] [.int 3]], false) := by
  have hp : ∃ q0, (PI.init (JsonP.ofBytes text98 true)).getToken JsonP.ops = .ok (.DocStart, q0) ∧
      ∃ q1, q0.getToken JsonP.ops = .ok (.MapStart, q1) ∧
      ∃ q2, q1.getToken JsonP.ops = .ok (.Key, q2) ∧
      ∃ q3, q2.lift (JsonP.ops.getKey q2.inner) = .ok (b!"second", q3) ∧
      ∃ q4, q3.getToken JsonP.ops = .ok (.MapStart, q4) ∧
      ∃ q5, q4.getToken JsonP.ops = .ok (.Key, q5) ∧
      ∃ q6, q5.lift (JsonP.ops.getKey q5.inner) = .ok (b!"x", q6) ∧
      ∃ q7, scalarE JsonP.ops (JsonP.ops.getInt ⟨32, true⟩) q6 = .ok (3, q7) ∧
      ∃ q8, q7.getToken JsonP.ops = .ok (.MapEnd, q8) ∧
      ∃ q9, q8.getToken JsonP.ops = .ok (.Key, q9) ∧
      ∃ q10, q9.lift (JsonP.ops.getKey q9.inner) = .ok (b!"first", q10) ∧
      scalarE JsonP.ops (JsonP.ops.getInt ⟨32, true⟩) q10 = .throw .std :=
    ⟨_, rfl, _, rfl, _, rfl, _, rfl, _, rfl, _, rfl, _, rfl, _, rfl, _, rfl, _, rfl, _, rfl, rfl⟩
  obtain ⟨q0, h0, q1, h1, q2, h2, q3, h3, q4, h4, q5, h5, q6, h6, q7, h7, q8, h8, q9, h9, q10, h10, h11⟩ := hp
  have e7 : deserE JsonP.ops Samples.env ⟨.Strict, []⟩ m Samples.int32 (.int 9) q6 = .ok (.done (.int 3) q7) := by
    rw [Samples.int32, deserE.eq_def]
    dsimp only
    rw [h7]
    rfl
  have e8 (d : StructDef) (found : List Bytes) (v : Val) : deserMembersE JsonP.ops Samples.env ⟨.Strict, []⟩ m d found v q7 = .ok (.done v q8) := by
    rw [deserMembersE.eq_def, h8]
    rfl
  have e4 : deserE JsonP.ops Samples.env ⟨.Strict, []⟩ m (.named 5) (.obj [.obj [] [.int 8]] [.int 9]) q3 = .ok (.done (.obj [.obj [] [.int 8]] [.int 3]) q8) := by
    rw [deserE.eq_def]
    show deserClassE _ _ _ _ _ _ _ = _
    rw [deserClassE.eq_def, h4]
    show deserMembersE _ _ _ _ _ _ _ _ = _
    rw [deserMembersE.eq_def, h5]
    show step (q5.lift (JsonP.ops.getKey q5.inner)) _ _ _ = _
    rw [h6]
    show into (deserE JsonP.ops Samples.env ⟨.Strict, []⟩ m Samples.int32 (.int 9) q6) _ _ = _
    rw [e7]
    exact e8 _ _ _
  have e10 (v : Val) : deserE JsonP.ops Samples.env ⟨.Strict, []⟩ m Samples.int32 v q10 = .ok (.threw .std v false) := by
    rw [Samples.int32, deserE.eq_def]
    dsimp only
    rw [h11]
    rfl
  have e1 : deserE JsonP.ops Samples.env ⟨.Strict, []⟩ m (.named 2) pair98 q0 = .ok (.threw .std (.obj [] [.int 7, .obj [.obj [] [.int 8]] [.int 3]]) false) := by
    rw [deserE.eq_def]
    show deserClassE _ _ _ _ _ _ _ = _
    rw [deserClassE.eq_def, h1]
    show deserMembersE _ _ _ _ _ _ _ _ = _
    rw [deserMembersE.eq_def, h2]
    show step (q2.lift (JsonP.ops.getKey q2.inner)) _ _ _ = _
    rw [h3]
    show into (deserE JsonP.ops Samples.env ⟨.Strict, []⟩ m (.named 5) (.obj [.obj [] [.int 8]] [.int 9]) q3) _ _ = _
    rw [e4]
    show deserMembersE _ _ _ _ _ _ _ _ = _
    rw [deserMembersE.eq_def, h9]
    show step (q9.lift (JsonP.ops.getKey q9.inner)) _ _ _ = _
    rw [h10]
    show into (deserE JsonP.ops Samples.env ⟨.Strict, []⟩ m Samples.int32 (.int 7) q10) _ _ = _
    rw [e10]
    rfl
  unfold objectAfter
  rw [h0]
  show Res.bind (deserE JsonP.ops Samples.env ⟨.Strict, []⟩ m (.named 2) pair98 q0) _ = _
  rw [e1]
  rfl

theorem samples_typed : DefaultsTyped Samples.env := by
  intro i
  match i with
  | 0 => simp [Samples.env, HasType, OwnHave, ParentsHave, Samples.int32, InRange]
  | 1 => simp [Samples.env, HasType, OwnHave, ParentsHave, HaveType, InSeqOrder, Samples.int32, InRange, Ty.vec]
  | 2 => simp [Samples.env, HasType, OwnHave, ParentsHave, Samples.int32, InRange]
  | 3 => simp [Samples.env, HasType, TupleHas, Samples.int32, InRange]
  | 4 => simp [Samples.env, HasType]
  | n + 5 => simp [Samples.env, HasType, OwnHave, ParentsHave, Samples.int32, InRange]

/-- C98 is not vacuous: that import throws, the `Pair` is still a `Pair`, and `b`, which does not occur in the text, is still 8. -/
example (m : Mess JsonP) : jsonImport Samples.env ⟨.Strict, []⟩ true (.named 2) pair98 text98 = .throw .std ∧
    ∃ w d, objectAfter JsonP.ops Samples.env ⟨.Strict, []⟩ m (.named 2) pair98 (PI.init (JsonP.ofBytes text98 true)) = .ok (w, d) ∧
      HasType Samples.env (.named 2) w ∧ look Samples.env [.key b!"second", .key b!"b"] (.named 2) w = some (.int 8) := by
  have hdoc := Samples.plain_doc (.obj [(Samples.jstr b!"second", .obj [(Samples.jstr b!"x", Samples.num 3)]), (Samples.jstr b!"first", .scalar (.bool true))]) (by decide)
  refine ⟨(jsonImport_doc Samples.env ⟨.Strict, []⟩ hdoc (.named 2) _ (.inl fun h => by cases h)).trans ?_, _, _, after98 m, ?_, ?_⟩
  · rfl
  · refine (C98_json_partial Samples.env ?_ ⟨.Strict, []⟩ m true (.named 2) pair98 ?_ text98 _ _ (after98 m)).1
    · exact samples_typed
    · simp [pair98, HasType, Samples.env, OwnHave, ParentsHave, Samples.int32, InRange]
  · exact C98_json_names Samples.env ⟨.Strict, []⟩ m true (.named 2) pair98 text98 b!"b" (by decide) (by decide) _ _ (after98 m) _ (by simp) _ rfl

end Thors.Props
