import Verif.Props.Members
import Verif.Props.Stream
import Verif.Proofs.YamlPresents
/-
C17 (unknown members), C18 (exactness) and C19 (order of members) for YAML and for JSON in streams.
-/
namespace Thors.Props
open Thors Spec StrIn

private theorem unknown_none {d : StructDef} {k : Bytes} (h : ∀ m ∈ allMembers d, m.out ≠ k) : d.find k = none := by
  cases hf : d.find k with
  | none => rfl
  | some s => obtain ⟨m, hm, e, -⟩ := find_out hf; exact absurd e (h m hm)

mutual
private theorem yaml_skips : ∀ v : YTree, v.skippable ysem = true
  | .scalar _ => rfl
  | .arr ts => yaml_all ts
  | .obj ms => yaml_allM ms
private theorem yaml_all : ∀ v : List YTree, Tr.skippable.all ysem v = true
  | [] => rfl
  | t :: ts => by rw [Tr.skippable.all, yaml_skips t, yaml_all ts]; rfl
private theorem yaml_allM : ∀ v : List (Bytes × YTree), Tr.skippable.allM ysem v = true
  | [] => rfl
  | (k, t) :: ts => by rw [Tr.skippable.allM, yaml_skips t, yaml_allM ts]; rfl
end

/-- C17 for YAML, Strict and Exact: an unknown member anywhere makes the import fail. -/
theorem C17_yaml_strict_rejects (env : Env) (cfg : Cfg) (hs : cfg.strict ≠ .Weak) (ty : Ty) (old : Val) (v : YTree) (es : List YEv) (d : StructDef)
    (ms : List (Bytes × YTree)) (hin : Inside ysem env cfg d ms ty v) (k : Bytes) (x : YTree) (hk : (k, x) ∈ ms) (hunknown : ∀ m ∈ allMembers d, m.out ≠ k) :
    ∀ w, yamlImport env cfg ty old ([.streamStart, .docStart] ++ yevents v ++ .docEnd :: es) ≠ .ok w := by
  rw [yamlImport_doc]
  exact inside_fails ysem env cfg (fun old => unknown_fails ysem cfg hs d _ _ (mem_members ysem env cfg hk) (unknown_none hunknown) [] old) hin old

/-- C17 for YAML, Weak: unknown members, at any depth, make no difference. -/
theorem C17_yaml_weak_ignores (env : Env) (cfg : Cfg) (hw : cfg.strict = .Weak) (ty : Ty) (old : Val) (v : YTree) (es es' : List YEv) :
    yamlImport env cfg ty old ([.streamStart, .docStart] ++ yevents v ++ .docEnd :: es) =
      yamlImport env cfg ty old ([.streamStart, .docStart] ++ yevents (prune ysem env v ty) ++ .docEnd :: es') := by
  rw [yamlImport_doc, yamlImport_doc]
  exact (imp_prune ysem env cfg hw v (yaml_skips v) ty old).symm

/-- C18 for YAML, first half: after a successful import in Exact mode every object that went into a class had all its members. -/
theorem C18_yaml_exact_requires_all (env : Env) (cfg : Cfg) (hs : cfg.strict = .Exact) (ty : Ty) (old w : Val) (v : YTree) (es : List YEv)
    (hok : yamlImport env cfg ty old ([.streamStart, .docStart] ++ yevents v ++ .docEnd :: es) = .ok w) (d : StructDef) (ms : List (Bytes × YTree))
    (hin : Inside ysem env cfg d ms ty v) (hnames : ((allMembers d).map Member.name).Nodup) : ∀ m ∈ allMembers d, ∃ k x, (k, x) ∈ ms ∧ k = m.out := by
  rw [yamlImport_doc] at hok
  exact exact_covers ysem env cfg hs hin hnames hok

/-- C19 for YAML: documents that differ only in the order of the members of objects that go into classes are imported to the same value. -/
theorem C19_yaml_order_irrelevant (env : Env) (cfg : Cfg) (ty : Ty) (old w : Val) (v v' : YTree) (es : List YEv) (hre : Reord ysem env ty v v')
    (hok : yamlImport env cfg ty old ([.streamStart, .docStart] ++ yevents v ++ .docEnd :: es) = .ok w) :
    yamlImport env cfg ty old ([.streamStart, .docStart] ++ yevents v' ++ .docEnd :: es) = .ok w := by
  rw [yamlImport_doc] at hok ⊢
  exact imp_reord ysem env cfg hre old w hok

/-- C17 for JSON in a stream, Strict and Exact. -/
theorem C17_stream_strict_rejects (env : Env) (cfg : Cfg) (conv : Bool) (hs : cfg.strict ≠ .Weak) (ty : Ty) (old : Val) (v : JTree) (w tv post : Bytes) (hw : Ws w)
    (hv : JText codePair v tv) (hp : Ends v post) (i : IStr) (hi : Ready i (w ++ tv ++ post)) (d : StructDef) (ms : List (JStr × JTree))
    (hin : Inside (jssem conv) env cfg d ms ty v) (k : JStr) (x : JTree) (hk : (k, x) ∈ ms) (hunknown : ∀ m ∈ allMembers d, m.out ≠ k.val conv) :
    ∀ r, jsonStreamImport env cfg conv ty old i ≠ .ok r := by
  rintro ⟨r, i'⟩ e
  exact inside_fails (jssem conv) env cfg (fun old => unknown_fails (jssem conv) cfg hs d _ _ (mem_members (jssem conv) env cfg hk) (unknown_none hunknown) [] old) hin old r
    (imp_of_streamImport env cfg hw hv hp hi.oks ty old r (fun h => absurd h hs) e)

/-- C17 for JSON in a stream, Weak: unknown members, at any depth, make no difference. -/
theorem C17_stream_weak_ignores (env : Env) (cfg : Cfg) (conv : Bool) (hs : cfg.strict = .Weak) (ty : Ty) (old x : Val) (v : JTree) (w tv post w' tu post' : Bytes)
    (hw : Ws w) (hw' : Ws w') (hv : JText codePair v tv) (hu : JText codePair (prune (jssem conv) env v ty) tu) (hp : Ends v post)
    (hp' : Ends (prune (jssem conv) env v ty) post') (hskip : v.skippable (jssem conv) = true) (i j : IStr) (hi : Ready i (w ++ tv ++ post)) (hj : Ready j (w' ++ tu ++ post')) :
    (∃ i', jsonStreamImport env cfg conv ty old i = .ok (x, i')) ↔ ∃ j', jsonStreamImport env cfg conv ty old j = .ok (x, j') := by
  have key := imp_prune (jssem conv) env cfg hs v hskip ty old
  constructor
  · rintro ⟨i', e⟩
    have e := imp_of_streamImport env cfg hw hv hp hi.oks ty old x (fun _ => hskip) e
    obtain ⟨j', e, -⟩ := jsonStreamImport_doc env cfg hw' hu hp' hj.oks ty old x (key.trans e)
    exact ⟨j', e⟩
  · rintro ⟨j', e⟩
    have e := imp_of_streamImport env cfg hw' hu hp' hj.oks ty old x (fun _ => skippable_prune (jssem conv) env v ty hskip) e
    obtain ⟨i', e, -⟩ := jsonStreamImport_doc env cfg hw hv hp hi.oks ty old x (key.symm.trans e)
    exact ⟨i', e⟩

/-- C18 for JSON in a stream, first half. -/
theorem C18_stream_exact_requires_all (env : Env) (cfg : Cfg) (conv : Bool) (hs : cfg.strict = .Exact) (ty : Ty) (old x : Val) (v : JTree) (w tv post : Bytes) (hw : Ws w)
    (hv : JText codePair v tv) (hp : Ends v post) (i i' : IStr) (hi : Ready i (w ++ tv ++ post)) (hok : jsonStreamImport env cfg conv ty old i = .ok (x, i'))
    (d : StructDef) (ms : List (JStr × JTree)) (hin : Inside (jssem conv) env cfg d ms ty v) (hnames : ((allMembers d).map Member.name).Nodup) :
    ∀ m ∈ allMembers d, ∃ k u, (k, u) ∈ ms ∧ k.val conv = m.out :=
  exact_covers (jssem conv) env cfg hs hin hnames (imp_of_streamImport env cfg hw hv hp hi.oks ty old x (fun h => by rw [hs] at h; cases h) hok)

/-- C19 for JSON in streams. -/
theorem C19_stream_order_irrelevant (env : Env) (cfg : Cfg) (conv : Bool) (ty : Ty) (old x : Val) (v u : JTree) (w tv post w' tu post' : Bytes) (hw : Ws w) (hw' : Ws w')
    (hv : JText codePair v tv) (hu : JText codePair u tu) (hp : Ends v post) (hp' : Ends u post') (hre : Reord (jssem conv) env ty v u) (i j i' : IStr)
    (hi : Ready i (w ++ tv ++ post)) (hj : Ready j (w' ++ tu ++ post')) (hskip : cfg.strict = .Weak → v.skippable (jssem conv) = true)
    (hok : jsonStreamImport env cfg conv ty old i = .ok (x, i')) : ∃ j', jsonStreamImport env cfg conv ty old j = .ok (x, j') ∧ Behind j' post' := by
  have e := imp_of_streamImport env cfg hw hv hp hi.oks ty old x hskip hok
  obtain ⟨j', e, h⟩ := jsonStreamImport_doc env cfg hw' hu hp' hj.oks ty old x (imp_reord (jssem conv) env cfg hre old x e)
  exact ⟨j', e, behind_of h⟩

/-- non-vacuity: `{first: 1, second: {b: 2, zz: [3], x: 4}}` into the sample struct `Pair`: the inner object has an unknown member. -/
private def ydoc17 : YTree := .obj [(b!"first", .scalar b!"1"), (b!"second", .obj [(b!"b", .scalar b!"2"), (b!"zz", .arr [.scalar b!"3"]), (b!"x", .scalar b!"4")])]
example (w : Val) : yamlImport Samples.env ⟨.Strict, []⟩ (.named 2) (Samples.env.dflt 2) ([.streamStart, .docStart] ++ yevents ydoc17 ++ .docEnd :: [.streamEnd]) ≠ .ok w :=
  C17_yaml_strict_rejects Samples.env ⟨.Strict, []⟩ (by decide) (.named 2) _ ydoc17 _ _ _ (.cls rfl (.member (.tail _ (.head _)) rfl (.cls rfl .here))) b!"zz" _ (.tail _ (.head _)) (by decide) w
example : yamlImport Samples.env ⟨.Weak, []⟩ (.named 2) (Samples.env.dflt 2) ([.streamStart, .docStart] ++ yevents ydoc17 ++ .docEnd :: [.streamEnd]) =
    .ok (.obj [] [.int 1, .obj [.obj [] [.int 2]] [.int 4]]) := by
  rw [C17_yaml_weak_ignores Samples.env ⟨.Weak, []⟩ rfl (.named 2) _ ydoc17 _ [], yamlImport_doc]
  rfl
/-- The members in the other order. -/
example : yamlImport Samples.env ⟨.Exact, []⟩ (.named 2) (Samples.env.dflt 2) ([.streamStart, .docStart] ++
    yevents (.obj [(b!"second", .obj [(b!"b", .scalar b!"2"), (b!"x", .scalar b!"4")]), (b!"first", .scalar b!"1")]) ++ .docEnd :: []) =
    .ok (.obj [] [.int 1, .obj [.obj [] [.int 2]] [.int 4]]) := by
  refine C19_yaml_order_irrelevant Samples.env ⟨.Exact, []⟩ (.named 2) _ _ (.obj [(b!"first", .scalar b!"1"), (b!"second", .obj [(b!"b", .scalar b!"2"), (b!"x", .scalar b!"4")])]) _ []
    (.perm rfl (.swap _ _ []) (by decide)) ?_
  rw [yamlImport_doc]
  rfl

/-- After an import in Exact mode the document had all the members. -/
example : ∃ w, yamlImport Samples.env ⟨.Exact, []⟩ (.named 0) (Samples.env.dflt 0) ([.streamStart, .docStart] ++ yevents (.obj [(b!"b", .scalar b!"2")]) ++ .docEnd :: []) = .ok w ∧
    ∀ m ∈ allMembers (.mk [] [⟨b!"b", b!"b", Samples.int32⟩] none), ∃ k x, (k, x) ∈ [(b!"b", (Tr.scalar b!"2" : YTree))] ∧ k = m.out := by
  have h : yamlImport Samples.env ⟨.Exact, []⟩ (.named 0) (Samples.env.dflt 0) ([.streamStart, .docStart] ++ yevents (.obj [(b!"b", .scalar b!"2")]) ++ .docEnd :: []) =
      .ok (.obj [] [.int 2]) := by
    rw [yamlImport_doc]
    rfl
  exact ⟨_, h, C18_yaml_exact_requires_all Samples.env ⟨.Exact, []⟩ rfl (.named 0) _ _ _ _ h _ _ (.cls rfl .here) (by decide)⟩

/-- The same on streams. -/
private def sdoc17 : JTree := .obj [(Samples.jstr b!"first", Samples.num 1),
  (Samples.jstr b!"second", .obj [(Samples.jstr b!"b", Samples.num 2), (Samples.jstr b!"zz", .arr [Samples.num 3]), (Samples.jstr b!"x", Samples.num 4)])]
private def sdoc17' : JTree := .obj [(Samples.jstr b!"first", Samples.num 1), (Samples.jstr b!"second", .obj [(Samples.jstr b!"b", Samples.num 2), (Samples.jstr b!"x", Samples.num 4)])]
private def sdoc19 : JTree := .obj [(Samples.jstr b!"second", .obj [(Samples.jstr b!"b", Samples.num 2), (Samples.jstr b!"x", Samples.num 4)]), (Samples.jstr b!"first", Samples.num 1)]
private theorem at_start (t : Bytes) : Ready (IStr.ofBytes t) ([] ++ t ++ []) := ⟨⟨rfl, rfl⟩, rfl, Nat.zero_le _, by simp [IStr.ofBytes]⟩
private theorem sread17 : ∃ i, jsonStreamImport Samples.env ⟨.Weak, []⟩ true (.named 2) (Samples.env.dflt 2) (IStr.ofBytes (Samples.text sdoc17')) =
    .ok (.obj [] [.int 1, .obj [.obj [] [.int 2]] [.int 4]], i) := by
  obtain ⟨i, h, -⟩ := jsonStreamImport_doc Samples.env ⟨.Weak, []⟩ (conv := true) Samples.ws_nil (Samples.plain_text sdoc17' (by decide)) (post := []) trivial (at_start _).oks
    (.named 2) (Samples.env.dflt 2) (.obj [] [.int 1, .obj [.obj [] [.int 2]] [.int 4]]) rfl
  exact ⟨i, h⟩
example (r : Val × IStr) : jsonStreamImport Samples.env ⟨.Strict, []⟩ true (.named 2) (Samples.env.dflt 2) (IStr.ofBytes (Samples.text sdoc17)) ≠ .ok r :=
  C17_stream_strict_rejects Samples.env ⟨.Strict, []⟩ true (by decide) (.named 2) _ sdoc17 [] _ [] Samples.ws_nil (Samples.plain_text _ (by decide)) trivial _ (at_start _)
    (.mk [.mk [] [⟨b!"b", b!"b", Samples.int32⟩] none] [⟨b!"x", b!"x", Samples.int32⟩] none) _
    (.cls rfl (.member (k := Samples.jstr b!"second") (.tail _ (.head _)) rfl (.cls rfl .here)))
    (Samples.jstr b!"zz") (.arr [Samples.num 3]) (.tail _ (.head _)) (by decide) r
example : ∃ i, jsonStreamImport Samples.env ⟨.Weak, []⟩ true (.named 2) (Samples.env.dflt 2) (IStr.ofBytes (Samples.text sdoc17)) =
    .ok (.obj [] [.int 1, .obj [.obj [] [.int 2]] [.int 4]], i) :=
  (C17_stream_weak_ignores Samples.env ⟨.Weak, []⟩ true rfl (.named 2) _ _ sdoc17 [] _ [] [] _ [] Samples.ws_nil Samples.ws_nil (Samples.plain_text _ (by decide))
    (show JText codePair sdoc17' (Samples.text sdoc17') from Samples.plain_text _ (by decide)) trivial trivial (by decide) _ _ (at_start _) (at_start _)).mpr sread17
example : ∃ j, jsonStreamImport Samples.env ⟨.Weak, []⟩ true (.named 2) (Samples.env.dflt 2) (IStr.ofBytes (Samples.text sdoc19)) =
    .ok (.obj [] [.int 1, .obj [.obj [] [.int 2]] [.int 4]], j) := by
  obtain ⟨i, e⟩ := sread17
  obtain ⟨j, e, -⟩ := C19_stream_order_irrelevant Samples.env ⟨.Weak, []⟩ true (.named 2) _ _ sdoc17' sdoc19 [] _ [] [] _ [] Samples.ws_nil Samples.ws_nil (Samples.plain_text _ (by decide))
    (Samples.plain_text _ (by decide)) trivial trivial (.perm rfl (.swap _ _ []) (by decide)) _ _ i (at_start _) (at_start _) (fun _ => by decide) e
  exact ⟨j, e⟩

example : ∃ w i, jsonStreamImport Samples.env ⟨.Exact, []⟩ true (.named 0) (Samples.env.dflt 0) (IStr.ofBytes (Samples.text (.obj [(Samples.jstr b!"b", Samples.num 2)]))) = .ok (w, i) ∧
    ∀ m ∈ allMembers (.mk [] [⟨b!"b", b!"b", Samples.int32⟩] none), ∃ k x, (k, x) ∈ [(Samples.jstr b!"b", Samples.num 2)] ∧ k.val true = m.out := by
  obtain ⟨i, h, -⟩ := jsonStreamImport_doc Samples.env ⟨.Exact, []⟩ (conv := true) Samples.ws_nil (Samples.plain_text (.obj [(Samples.jstr b!"b", Samples.num 2)]) (by decide))
    (post := []) trivial (at_start _).oks (.named 0) (Samples.env.dflt 0) (.obj [] [.int 2]) rfl
  exact ⟨_, i, h, C18_stream_exact_requires_all Samples.env ⟨.Exact, []⟩ true rfl (.named 0) _ _ (.obj [(Samples.jstr b!"b", Samples.num 2)]) [] _ [] Samples.ws_nil (Samples.plain_text _ (by decide)) trivial _ i (at_start _) h _ _
    (.cls rfl .here) (by decide)⟩

end Thors.Props
