import Verif.Proofs.Touch
import Verif.Proofs.StreamImport
import Verif.Proofs.YamlPresents
import Verif.Proofs.BsonStreamDoc
import Verif.Props.Samples
/-
C97: what a document does not mention stays as it was.
-/
namespace Thors.Props
open Thors Thors.Spec StrIn

/-- C97. JSON from a string: whatever is at a place of the object that the document does not mention is still there after the import. -/
theorem C97_json (env : Env) (cfg : Cfg) (conv : Bool) (ty : Ty) (old new : Val) (v : JTree) (t : Bytes) (hdoc : JDoc codePair v t)
    (hskip : cfg.strict = .Weak → v.skippable (jsem conv) = true) (hok : jsonImport env cfg conv ty old t = .ok new)
    (p : List Step) (hm : ¬ Mentions (jsem conv) v p) (x : Val) (hx : look env p ty old = some x) : look env p ty new = some x := by
  rw [jsonImport_doc env cfg hdoc ty old (.inl hskip)] at hok
  exact imp_keeps _ env cfg v ty old new hok p x hm hx

/-- C97. JSON from a stream. -/
theorem C97_json_stream (env : Env) (cfg : Cfg) (conv : Bool) (ty : Ty) (old new : Val) (v : JTree) (w tv post : Bytes) (hw : Ws w)
    (hv : JText codePair v tv) (hp : Ends v post) (hskip : cfg.strict = .Weak → v.skippable (jssem conv) = true) (i i' : IStr) (hi : OkS (w ++ tv ++ post) i)
    (hok : jsonStreamImport env cfg conv ty old i = .ok (new, i'))
    (p : List Step) (hm : ¬ Mentions (jssem conv) v p) (x : Val) (hx : look env p ty old = some x) : look env p ty new = some x := by
  cases h : imp (jssem conv) env cfg v ty old with
  | ok y =>
    obtain ⟨i₁, e, -⟩ := jsonStreamImport_doc env cfg hw hv hp hi ty old y h
    rw [hok] at e
    cases e
    exact imp_keeps _ env cfg v ty old new h p x hm hx
  | throw e => rw [jsonStreamImport_throw env cfg hw hv hp hi ty old e h] at hok; cases hok
  | ub =>
    have hs := stream_import_match env cfg hw hv hp hi (conv := conv) ty old
    rw [h] at hs
    unfold jsonStreamImport at hok
    rw [hs hskip] at hok
    cases hok

/-- C97. BSON from a string. -/
theorem C97_bson (env : Env) (cfg : Cfg) (ty : Ty) (old new : Val) (t : BTree) (h : Storable32 t) (hb : bsonBase env ty = BsonP.rootKind t) (rest : Bytes)
    (hok : bsonImport env cfg ty old (bdoc t ++ rest) = .ok new)
    (p : List Step) (hm : ¬ Mentions bsem t p) (x : Val) (hx : look env p ty old = some x) : look env p ty new = some x := by
  rw [bsonImport_doc env cfg t h rest ty hb] at hok
  exact imp_keeps _ env cfg t ty old new hok p x hm hx

/-- C97. BSON from a stream. -/
theorem C97_bson_stream (env : Env) (cfg : Cfg) (ty : Ty) (old new : Val) (t : BTree) (h : Storable32 t) (hb : bsonBase env ty = BsonP.rootKind t) (rest : Bytes)
    (i i' : IStr) (hi : Stands (bdoc t ++ rest) i) (hok : bsonStreamImport env cfg ty old i = .ok (new, i'))
    (p : List Step) (hm : ¬ Mentions bsem t p) (x : Val) (hx : look env p ty old = some x) : look env p ty new = some x := by
  rcases bson_stream_doc env cfg t h rest ty hb old hi with ⟨v, i₁, h1, h2, -⟩ | ⟨e, -, h2⟩ | ⟨-, h2⟩
  · rw [hok] at h2
    cases h2
    exact imp_keeps _ env cfg t ty old new h1 p x hm hx
  · rw [hok] at h2; cases h2
  · rw [hok] at h2; cases h2

/-- C97. YAML. -/
theorem C97_yaml (env : Env) (cfg : Cfg) (ty : Ty) (old new : Val) (v : YTree) (es : List YEv)
    (hok : yamlImport env cfg ty old ([.streamStart, .docStart] ++ yevents v ++ .docEnd :: es) = .ok new)
    (p : List Step) (hm : ¬ Mentions ysem v p) (x : Val) (hx : look env p ty old = some x) : look env p ty new = some x := by
  rw [yamlImport_doc] at hok
  exact imp_keeps _ env cfg v ty old new hok p x hm hx

/-- The document of the examples, `{"second":{"x":3}}`. -/
def doc97 : JTree := .obj [(Samples.jstr b!"second", .obj [(Samples.jstr b!"x", Samples.num 3)])]

theorem doc97_mentions {conv : Bool} {p : List Step} (h : Mentions (jsem conv) doc97 p) :
    p = [] ∨ p = [.key b!"second"] ∨ p = [.key b!"second", .key b!"x"] := by
  cases h with
  | here => exact .inl rfl
  | member hm h =>
    simp only [List.mem_singleton, Prod.mk.injEq] at hm
    obtain ⟨rfl, rfl⟩ := hm
    have e : (jsem conv).key (Samples.jstr b!"second") = b!"second" := by cases conv <;> rfl
    rw [e]
    cases h with
    | here => exact .inr (.inl rfl)
    | member hm h =>
      simp only [List.mem_singleton, Prod.mk.injEq] at hm
      obtain ⟨rfl, rfl⟩ := hm
      have e : (jsem conv).key (Samples.jstr b!"x") = b!"x" := by cases conv <;> rfl
      rw [e]
      cases h with
      | here => exact .inr (.inr rfl)

/-- C97 is not vacuous: `{"second":{"x":3}}` into `Pair { first = 7, second = { b = 8, x = 9 } }` succeeds, and `first` and the inherited `b` of `second` keep
their values. -/
example : ∃ new, jsonImport Samples.env ⟨.Strict, []⟩ true (.named 2) (.obj [] [.int 7, .obj [.obj [] [.int 8]] [.int 9]]) b!"{\"second\":{\"x\":3}}" = .ok new ∧
    look Samples.env [.key b!"first"] (.named 2) new = some (.int 7) ∧
    look Samples.env [.key b!"second", .key b!"b"] (.named 2) new = some (.int 8) := by
  have hdoc := Samples.plain_doc doc97 (by decide)
  have h : jsonImport Samples.env ⟨.Strict, []⟩ true (.named 2) (.obj [] [.int 7, .obj [.obj [] [.int 8]] [.int 9]]) b!"{\"second\":{\"x\":3}}" =
      .ok (.obj [] [.int 7, .obj [.obj [] [.int 8]] [.int 3]]) := by
    refine (jsonImport_doc Samples.env ⟨.Strict, []⟩ hdoc (.named 2) _ (.inl fun h => by cases h)).trans ?_
    rfl
  refine ⟨_, h, ?_, ?_⟩
  · exact C97_json Samples.env ⟨.Strict, []⟩ true (.named 2) _ _ doc97 _ hdoc (fun h => by cases h) h _
      (fun hm => by rcases doc97_mentions hm with h | h | h <;> simp at h) _ rfl
  · exact C97_json Samples.env ⟨.Strict, []⟩ true (.named 2) _ _ doc97 _ hdoc (fun h => by cases h) h _
      (fun hm => by rcases doc97_mentions hm with h | h | h <;> simp at h <;> revert h <;> decide) _ rfl

/-- C97 in YAML: `[5]` into the tuple `(1, true)` leaves the second element. -/
example (es : List YEv) : ∃ new,
    yamlImport Samples.env ⟨.Strict, []⟩ (.named 3) (.list [.int 1, .bool true]) ([.streamStart, .docStart] ++ yevents (.arr [.scalar b!"5"]) ++ .docEnd :: es) = .ok new ∧
    look Samples.env [.index 1] (.named 3) new = some (.bool true) := by
  have h : yamlImport Samples.env ⟨.Strict, []⟩ (.named 3) (.list [.int 1, .bool true]) ([.streamStart, .docStart] ++ yevents (.arr [.scalar b!"5"]) ++ .docEnd :: es) =
      .ok (.list [.int 5, .bool true]) := by
    rw [yamlImport_doc]
    rfl
  exact ⟨_, h, C97_yaml _ _ _ _ _ _ _ h _ (fun hm => by
    generalize hp : [Step.index 1] = p at hm
    cases hm with
    | here => cases hp
    | elem hi h => cases hp; simp at hi) _ rfl⟩

/-- What is behind a `std::unique_ptr` is not kept, whether mentioned or not: the import makes a new object, and what the old one held does not
matter. -/
theorem C97_pointer (env : Env) (cfg : Cfg) (conv : Bool) (ty : Ty) (old old' : Val) (t : Bytes) :
    jsonImport env cfg conv (.uptr ty) old t = jsonImport env cfg conv (.uptr ty) old' t := by
  have h : ∀ p : PI JsonP, deser JsonP.ops env cfg (.uptr ty) old p = deser JsonP.ops env cfg (.uptr ty) old' p := fun p => by
    rw [deser.eq_def, deser.eq_def JsonP.ops env cfg (.uptr ty) old']
  unfold jsonImport importValue
  simp only [h]

end Thors.Props
