import Verif.Proofs.Settles
import Verif.Proofs.StreamImport
import Verif.Proofs.YamlPresents
import Verif.Proofs.BsonStreamDoc
import Verif.Props.Samples
import Verif.Props.Sets
/-
C100: documents read one after the other into one object add up. C101: a document read again changes nothing.
-/
namespace Thors.Props
open Thors Thors.Spec StrIn

/-- What a stream import of a document returns is what its specification says. -/
theorem stream_returns {env : Env} {cfg : Cfg} {conv : Bool} {ty : Ty} {old new : Val} {v : JTree} {w tv post : Bytes} (hw : Ws w) (hv : JText codePair v tv) (hp : Ends v post)
    (hskip : cfg.strict = .Weak → v.skippable (jssem conv) = true) {i i' : IStr} (hi : OkS (w ++ tv ++ post) i)
    (hok : jsonStreamImport env cfg conv ty old i = .ok (new, i')) : imp (jssem conv) env cfg v ty old = .ok new := by
  cases h : imp (jssem conv) env cfg v ty old with
  | ok y =>
    obtain ⟨i₁, e, -⟩ := jsonStreamImport_doc env cfg hw hv hp hi ty old y h
    rw [hok] at e
    cases e
    rfl
  | throw e => rw [jsonStreamImport_throw env cfg hw hv hp hi ty old e h] at hok; cases hok
  | ub =>
    have hs := stream_import_match env cfg hw hv hp hi (conv := conv) ty old
    rw [h] at hs
    unfold jsonStreamImport at hok
    rw [hs hskip] at hok
    cases hok

theorem bson_stream_returns {env : Env} {cfg : Cfg} {ty : Ty} {old new : Val} {t : BTree} (h : Storable32 t) (hb : bsonBase env ty = BsonP.rootKind t) {rest : Bytes}
    {i i' : IStr} (hi : Stands (bdoc t ++ rest) i) (hok : bsonStreamImport env cfg ty old i = .ok (new, i')) : imp bsem env cfg t ty old = .ok new := by
  rcases bson_stream_doc env cfg t h rest ty hb old hi with ⟨v, i₁, h1, h2, -⟩ | ⟨e, -, h2⟩ | ⟨-, h2⟩
  · rw [hok] at h2
    cases h2
    exact h1
  · rw [hok] at h2; cases h2
  · rw [hok] at h2; cases h2

/-- C100. JSON from strings: reading one document and then another into the same object ends just as reading one document with the members of both, whether
with a value or an exception. (In Exact mode every document has to be complete, so that the two are not the same.) -/
theorem C100_json (env : Env) (cfg : Cfg) (hs : cfg.strict ≠ .Exact) (conv : Bool) (ty : Ty) (ha : Accumulates env ty) (v1 v2 v : JTree) (hj : joined v1 v2 = some v)
    (t1 t2 t : Bytes) (h1 : JDoc codePair v1 t1) (h2 : JDoc codePair v2 t2) (h : JDoc codePair v t) (hskip : cfg.strict = .Weak → v.skippable (jsem conv) = true) (old : Val) :
    jsonImport env cfg conv ty old t = jsonImport env cfg conv ty old t1 >>= fun w => jsonImport env cfg conv ty w t2 := by
  rw [jsonImport_doc env cfg h ty old (.inl hskip), jsonImport_doc env cfg h1 ty old (.inl fun e => (joined_skippable hj (hskip e)).1), imp_joined hs hj ty ha]
  congr 1
  funext w
  rw [jsonImport_doc env cfg h2 ty w (.inl fun e => (joined_skippable hj (hskip e)).2)]

/-- C100. JSON from streams. -/
theorem C100_json_stream (env : Env) (cfg : Cfg) (hs : cfg.strict ≠ .Exact) (conv : Bool) (ty : Ty) (ha : Accumulates env ty) (v1 v2 v : JTree) (hj : joined v1 v2 = some v)
    (w1 t1 p1 w2 t2 p2 w t p : Bytes) (hw1 : Ws w1) (ht1 : JText codePair v1 t1) (hp1 : Ends v1 p1) (hw2 : Ws w2) (ht2 : JText codePair v2 t2) (hp2 : Ends v2 p2)
    (hw : Ws w) (ht : JText codePair v t) (hp : Ends v p) (hskip : cfg.strict = .Weak → v.skippable (jssem conv) = true)
    (i1 i2 i j1 j2 : IStr) (hi1 : OkS (w1 ++ t1 ++ p1) i1) (hi2 : OkS (w2 ++ t2 ++ p2) i2) (hi : OkS (w ++ t ++ p) i) (old a b : Val)
    (h1 : jsonStreamImport env cfg conv ty old i1 = .ok (a, j1)) (h2 : jsonStreamImport env cfg conv ty a i2 = .ok (b, j2)) :
    ∃ j, jsonStreamImport env cfg conv ty old i = .ok (b, j) := by
  have e1 := stream_returns hw1 ht1 hp1 (fun e => (joined_skippable hj (hskip e)).1) hi1 h1
  have e2 := stream_returns hw2 ht2 hp2 (fun e => (joined_skippable hj (hskip e)).2) hi2 h2
  have e : imp (jssem conv) env cfg v ty old = .ok b := by
    rw [imp_joined hs hj ty ha, e1]
    exact e2
  obtain ⟨j, hj, -⟩ := jsonStreamImport_doc env cfg hw ht hp hi ty old b e
  exact ⟨j, hj⟩

/-- C100. BSON from strings. -/
theorem C100_bson (env : Env) (cfg : Cfg) (hs : cfg.strict ≠ .Exact) (ty : Ty) (ha : Accumulates env ty) (v1 v2 v : BTree) (hj : joined v1 v2 = some v)
    (h1 : Storable32 v1) (h2 : Storable32 v2) (h : Storable32 v) (hb : bsonBase env ty = BsonP.rootKind v) (r1 r2 r : Bytes) (old : Val) :
    bsonImport env cfg ty old (bdoc v ++ r) = bsonImport env cfg ty old (bdoc v1 ++ r1) >>= fun w => bsonImport env cfg ty w (bdoc v2 ++ r2) := by
  have hk : BsonP.rootKind v1 = BsonP.rootKind v ∧ BsonP.rootKind v2 = BsonP.rootKind v := by
    cases v1 <;> cases v2 <;> simp [joined] at hj <;> subst hj <;> exact ⟨rfl, rfl⟩
  rw [bsonImport_doc env cfg v h r ty hb, bsonImport_doc env cfg v1 h1 r1 ty (hb.trans hk.1.symm), imp_joined hs hj ty ha]
  congr 1
  funext w
  rw [bsonImport_doc env cfg v2 h2 r2 ty (hb.trans hk.2.symm)]

/-- C100. YAML. -/
theorem C100_yaml (env : Env) (cfg : Cfg) (hs : cfg.strict ≠ .Exact) (ty : Ty) (ha : Accumulates env ty) (v1 v2 v : YTree) (hj : joined v1 v2 = some v)
    (r1 r2 r : List YEv) (old : Val) :
    yamlImport env cfg ty old ([.streamStart, .docStart] ++ yevents v ++ .docEnd :: r) =
      yamlImport env cfg ty old ([.streamStart, .docStart] ++ yevents v1 ++ .docEnd :: r1) >>= fun w =>
        yamlImport env cfg ty w ([.streamStart, .docStart] ++ yevents v2 ++ .docEnd :: r2) := by
  rw [yamlImport_doc, yamlImport_doc, imp_joined hs hj ty ha]
  congr 1
  funext w
  rw [yamlImport_doc]

/-- C100 is not vacuous: `{"first":1}` and then `{"second":{"x":3}}`, and `{"first":1,"second":{"x":3}}`. -/
example (old : Val) : jsonImport Samples.env ⟨.Strict, []⟩ true (.named 2) old b!"{\"first\":1,\"second\":{\"x\":3}}" =
    jsonImport Samples.env ⟨.Strict, []⟩ true (.named 2) old b!"{\"first\":1}" >>= fun w => jsonImport Samples.env ⟨.Strict, []⟩ true (.named 2) w b!"{\"second\":{\"x\":3}}" :=
  C100_json Samples.env ⟨.Strict, []⟩ (by simp) true (.named 2) trivial (.obj [(Samples.jstr b!"first", Samples.num 1)])
    (.obj [(Samples.jstr b!"second", .obj [(Samples.jstr b!"x", Samples.num 3)])]) _ rfl _ _ _
    (Samples.plain_doc _ (by decide)) (Samples.plain_doc _ (by decide)) (Samples.plain_doc _ (by decide)) (fun h => by cases h) old

/-- and what comes out: the two members of `Pair { first = 7, second = { b = 8, x = 9 } }` are replaced. -/
example : jsonImport Samples.env ⟨.Strict, []⟩ true (.named 2) (.obj [] [.int 7, .obj [.obj [] [.int 8]] [.int 9]]) b!"{\"first\":1,\"second\":{\"x\":3}}" =
    .ok (.obj [] [.int 1, .obj [.obj [] [.int 8]] [.int 3]]) :=
  (jsonImport_doc Samples.env ⟨.Strict, []⟩ (v := .obj [(Samples.jstr b!"first", Samples.num 1), (Samples.jstr b!"second", .obj [(Samples.jstr b!"x", Samples.num 3)])])
    (Samples.plain_doc _ (by decide)) (.named 2) _ (.inl fun h => by cases h)).trans rfl

/-- What C101 says. -/
def C101_claim (env : Env) (cfg : Cfg) (conv : Bool) (ty : Ty) (old : Val) (t : Bytes) : Prop :=
  ∀ v, jsonImport env cfg conv ty old t = .ok v → jsonImport env cfg conv ty v t = .ok v

/-- C101 for types without sequences, multisets and multimaps, and documents whose objects do not have two members of one name. JSON from a string: what has been read
stays as it is when the document is read into it again. -/
theorem C101_json_partial (env : Env) (cfg : Cfg) (conv : Bool) (ok : Nat → Prop) (hA : SettlesAll env ok) (ty : Ty) (hS : Settles env ok ty) (old : Val) (v : JTree) (t : Bytes)
    (hdoc : JDoc codePair v t) (hn : NoRepeats (jsem conv) v) (hskip : cfg.strict = .Weak → v.skippable (jsem conv) = true) : C101_claim env cfg conv ty old t := by
  intro w h
  rw [jsonImport_doc env cfg hdoc ty _ (.inl hskip)] at h ⊢
  exact imp_again hA v hn ty hS old w h

/-- C101. JSON from a stream: the same text once more. -/
theorem C101_json_stream_partial (env : Env) (cfg : Cfg) (conv : Bool) (ok : Nat → Prop) (hA : SettlesAll env ok) (ty : Ty) (hS : Settles env ok ty) (old x : Val) (v : JTree)
    (w tv post : Bytes) (hw : Ws w) (hv : JText codePair v tv) (hp : Ends v post) (hn : NoRepeats (jssem conv) v)
    (hskip : cfg.strict = .Weak → v.skippable (jssem conv) = true) (i i' j : IStr) (hi : OkS (w ++ tv ++ post) i) (hj : OkS (w ++ tv ++ post) j)
    (h : jsonStreamImport env cfg conv ty old i = .ok (x, i')) : ∃ j', jsonStreamImport env cfg conv ty x j = .ok (x, j') := by
  have e := stream_returns hw hv hp hskip hi h
  obtain ⟨j', hj', -⟩ := jsonStreamImport_doc env cfg hw hv hp hj ty x x (imp_again hA v hn ty hS old x e)
  exact ⟨j', hj'⟩

/-- C101. BSON from a string. -/
theorem C101_bson_partial (env : Env) (cfg : Cfg) (ok : Nat → Prop) (hA : SettlesAll env ok) (ty : Ty) (hS : Settles env ok ty) (old x : Val) (t : BTree) (h : Storable32 t)
    (hn : NoRepeats bsem t) (hb : bsonBase env ty = BsonP.rootKind t) (rest : Bytes) (hok : bsonImport env cfg ty old (bdoc t ++ rest) = .ok x) :
    bsonImport env cfg ty x (bdoc t ++ rest) = .ok x := by
  rw [bsonImport_doc env cfg t h rest ty hb] at hok ⊢
  exact imp_again hA t hn ty hS old x hok

/-- C101. BSON from a stream. -/
theorem C101_bson_stream_partial (env : Env) (cfg : Cfg) (ok : Nat → Prop) (hA : SettlesAll env ok) (ty : Ty) (hS : Settles env ok ty) (old x : Val) (t : BTree) (h : Storable32 t)
    (hn : NoRepeats bsem t) (hb : bsonBase env ty = BsonP.rootKind t) (rest : Bytes) (i i' j : IStr) (hi : Stands (bdoc t ++ rest) i) (hj : Stands (bdoc t ++ rest) j)
    (hok : bsonStreamImport env cfg ty old i = .ok (x, i')) : ∃ j', bsonStreamImport env cfg ty x j = .ok (x, j') := by
  have e := imp_again hA t hn ty hS old x (bson_stream_returns h hb hi hok)
  rcases bson_stream_doc env cfg t h rest ty hb x hj with ⟨v, i₁, h1, h2, -⟩ | ⟨e', h1, h2⟩ | ⟨h1, h2⟩
  · rw [e] at h1; cases h1; exact ⟨_, h2⟩
  · rw [e] at h1; cases h1
  · rw [e] at h1; cases h1

/-- C101. YAML. -/
theorem C101_yaml_partial (env : Env) (cfg : Cfg) (ok : Nat → Prop) (hA : SettlesAll env ok) (ty : Ty) (hS : Settles env ok ty) (old x : Val) (v : YTree) (hn : NoRepeats ysem v)
    (es : List YEv) (hok : yamlImport env cfg ty old ([.streamStart, .docStart] ++ yevents v ++ .docEnd :: es) = .ok x) :
    yamlImport env cfg ty x ([.streamStart, .docStart] ++ yevents v ++ .docEnd :: es) = .ok x := by
  rw [yamlImport_doc] at hok ⊢
  exact imp_again hA v hn ty hS old x hok

/-- C101 is false: the elements of `[1]` are there twice after reading it twice into a `std::vector<int>`. -/
theorem C101_false : ∃ env cfg conv ty old t, ¬ C101_claim env cfg conv ty old t := by
  have hd : JDoc codePair (.arr [Samples.num 1]) b!"[1]" := Samples.plain_doc _ (by decide)
  refine ⟨Samples.env, ⟨.Strict, []⟩, true, .vec Samples.int32, .list [], b!"[1]", fun h => ?_⟩
  have h1 : jsonImport Samples.env ⟨.Strict, []⟩ true (.vec Samples.int32) (.list []) b!"[1]" = .ok (.list [.int 1]) :=
    (jsonImport_doc Samples.env ⟨.Strict, []⟩ hd _ _ (.inl fun h => by cases h)).trans rfl
  have h2 : jsonImport Samples.env ⟨.Strict, []⟩ true (.vec Samples.int32) (.list [.int 1]) b!"[1]" = .ok (.list [.int 1, .int 1]) :=
    (jsonImport_doc Samples.env ⟨.Strict, []⟩ hd _ _ (.inl fun h => by cases h)).trans rfl
  have := h _ h1
  rw [h2] at this
  simp at this

/-- `struct Entry { int x; std::string y; }` (1) and `struct Config { std::map<std::string, Entry> n; std::optional<Entry> o; std::unique_ptr<std::vector<int>> p; }` (0). -/
def env101 : Env where
  defs
    | 0 => .cls ⟨.mk [] [⟨b!"n", b!"n", .smap (.named 1)⟩, ⟨b!"o", b!"o", .opt (.named 1)⟩, ⟨b!"p", b!"p", .uptr (.vec Samples.int32)⟩] none, b!"Config", none⟩
    | _ => .cls ⟨.mk [] [⟨b!"x", b!"x", Samples.int32⟩, ⟨b!"y", b!"y", .str⟩] none, b!"Entry", none⟩
  dflt
    | 0 => .obj [] [.dict [], .none, .null]
    | _ => .obj [] [.int 0, .str []]
  registry := []
  derives c b := decide (c = b)

/-- C101 is not vacuous: these types settle. -/
theorem env101_settles : SettlesAll env101 fun _ => True := by
  intro i _
  match i with
  | 0 => simp [env101, allMembers, allMembers.inherited, Settles]
  | n + 1 => simp [env101, allMembers, allMembers.inherited, Settles, Samples.int32]

/-- `{"n":{"a":{"x":1},"b":{"y":"z"}},"o":{"x":4},"p":[1,2]}` -/
def doc101 : JTree :=
  .obj [(Samples.jstr b!"n", .obj [(Samples.jstr b!"a", .obj [(Samples.jstr b!"x", Samples.num 1)]), (Samples.jstr b!"b", .obj [(Samples.jstr b!"y", .scalar (.str (Samples.jstr b!"z")))])]),
    (Samples.jstr b!"o", .obj [(Samples.jstr b!"x", Samples.num 4)]), (Samples.jstr b!"p", .arr [Samples.num 1, Samples.num 2])]

example : ∃ w, jsonImport env101 ⟨.Strict, []⟩ true (.named 0) (env101.dflt 0) b!"{\"n\":{\"a\":{\"x\":1},\"b\":{\"y\":\"z\"}},\"o\":{\"x\":4},\"p\":[1,2]}" = .ok w ∧
    jsonImport env101 ⟨.Strict, []⟩ true (.named 0) w b!"{\"n\":{\"a\":{\"x\":1},\"b\":{\"y\":\"z\"}},\"o\":{\"x\":4},\"p\":[1,2]}" = .ok w := by
  have hd : JDoc codePair doc101 b!"{\"n\":{\"a\":{\"x\":1},\"b\":{\"y\":\"z\"}},\"o\":{\"x\":4},\"p\":[1,2]}" := Samples.plain_doc _ (by decide)
  have h : jsonImport env101 ⟨.Strict, []⟩ true (.named 0) (env101.dflt 0) b!"{\"n\":{\"a\":{\"x\":1},\"b\":{\"y\":\"z\"}},\"o\":{\"x\":4},\"p\":[1,2]}" =
      .ok (.obj [] [.dict [(b!"a", .obj [] [.int 1, .str []]), (b!"b", .obj [] [.int 0, .str b!"z"])], .some (.obj [] [.int 4, .str []]), .ptr (.list [.int 1, .int 2])]) :=
    (jsonImport_doc env101 ⟨.Strict, []⟩ hd (.named 0) _ (.inl fun h => by cases h)).trans rfl
  exact ⟨_, h, C101_json_partial env101 ⟨.Strict, []⟩ true _ env101_settles (.named 0) trivial _ doc101 _ hd
    (by simp [doc101, NoRepeats, NoRepeatsL, NoRepeatsM, jsem, Samples.num]; decide) (fun h => by cases h) _ h⟩

/-- C101 for a `std::set<int>`: `[3,1,3]` read twice into `{2}`. -/
example : ∃ w, jsonImport setsEnv ⟨.Strict, []⟩ true (.seq (.sorted 0) Samples.int32) (.list [.int 2]) b!"[3,1,3]" = .ok w ∧ w = .list [.int 1, .int 2, .int 3] ∧
    jsonImport setsEnv ⟨.Strict, []⟩ true (.seq (.sorted 0) Samples.int32) w b!"[3,1,3]" = .ok w := by
  have hd : JDoc codePair (.arr [Samples.num 3, Samples.num 1, Samples.num 3]) b!"[3,1,3]" := Samples.plain_doc _ (by decide)
  have h : jsonImport setsEnv ⟨.Strict, []⟩ true (.seq (.sorted 0) Samples.int32) (.list [.int 2]) b!"[3,1,3]" = .ok (.list [.int 1, .int 2, .int 3]) :=
    (jsonImport_doc setsEnv ⟨.Strict, []⟩ hd _ _ (.inl fun h => by cases h)).trans rfl
  exact ⟨_, h, rfl, C101_json_partial setsEnv ⟨.Strict, []⟩ true (fun _ => False) (fun _ h => h.elim) (.seq (.sorted 0) Samples.int32) (setsEnv_less 0 (by decide)) _ _ _ hd
    (by simp [NoRepeats, NoRepeatsL, Samples.num]) (fun h => by cases h) _ h⟩

end Thors.Props
