import Verif.Proofs.ImpOrder
import Verif.Props.Samples
/-
Properties C17 (unknown members), C18 (exactness) and C19 (order of members), for JSON texts.

`Inside … d ms ty v` (Spec/Positions.lean) says that importing the document `v` into a variable of type `ty`
imports, at some depth, the object with members `ms` into an object of class `d`.
-/
namespace Thors.Props
open Thors Spec StrIn

/-! ### C17 -/

/-- C17, Strict and Exact. Whatever the type, whatever the document, if anywhere in it an object that goes
into a struct has a member the struct (with its parents) does not know, the import does not succeed. -/
theorem C17_strict_rejects (env : Env) (cfg : Cfg) (conv : Bool) (hs : cfg.strict ≠ .Weak) (ty : Ty) (old : Val) (v : JTree) (t : Bytes)
    (hdoc : JDoc codePair v t) (d : StructDef) (ms : List (JStr × JTree)) (hin : Inside (jsem conv) env cfg d ms ty v)
    (k : JStr) (x : JTree) (hk : (k, x) ∈ ms) (hunknown : ∀ m ∈ allMembers d, m.out ≠ k.val conv) :
    ∀ w, jsonImport env cfg conv ty old t ≠ .ok w := by
  have hn : d.find (k.val conv) = none := by
    cases hf : d.find (k.val conv) with
    | none => rfl
    | some s => obtain ⟨m, hm, e, -⟩ := find_out hf; exact absurd e (hunknown m hm)
  rw [jsonImport_doc env cfg hdoc ty old (.inl fun h => absurd h hs)]
  exact inside_fails (jsem conv) env cfg (fun old => unknown_fails (jsem conv) cfg hs d _ _ (mem_members (jsem conv) env cfg hk) hn [] old) hin old

/-- C17, Strict and Exact: the failure is an exception, if the members in front of the unknown one are fine
(the object with just these can be imported). -/
theorem C17_strict_throws (env : Env) (cfg : Cfg) (conv : Bool) (hs : cfg.strict ≠ .Weak) (i : Nat) (c : ClassDef) (hd : env.defs i = .cls c) (old : Val)
    (ms₁ ms₂ : List (JStr × JTree)) (k : JStr) (x : JTree) (hunknown : ∀ m ∈ allMembers c.traits, m.out ≠ k.val conv) (t t₁ : Bytes)
    (hdoc : JDoc codePair (.obj (ms₁ ++ (k, x) :: ms₂)) t) (hdoc₁ : JDoc codePair (.obj ms₁) t₁) (w : Val)
    (hok : jsonImport env cfg conv (.named i) old t₁ = .ok w) :
    jsonImport env cfg conv (.named i) old t = .throw .std := by
  have hn : c.traits.find (k.val conv) = none := by
    cases hf : c.traits.find (k.val conv) with
    | none => rfl
    | some s => obtain ⟨m, hm, e, -⟩ := find_out hf; exact absurd e (hunknown m hm)
  rw [jsonImport_doc env cfg hdoc₁ _ old (.inl fun h => absurd h hs)] at hok
  rw [jsonImport_doc env cfg hdoc _ old (.inl fun h => absurd h hs)]
  simp only [imp] at hok ⊢
  rw [impObj, hd] at hok ⊢
  simp only at hok ⊢
  rw [members_eq] at hok ⊢
  rw [List.map_append, List.map_cons]
  exact unknown_throws (jsem conv) cfg hs c.traits ⟨k, x, imp (jsem conv) env cfg x⟩ hn _ _ _ _ _ hok

/-- C17, Weak. Unknown members, at any depth, make no difference: the import gives exactly what the document
without them (`prune`) gives. (The text must be one the reader can skip, see C16.) -/
theorem C17_weak_ignores (env : Env) (cfg : Cfg) (conv : Bool) (hw : cfg.strict = .Weak) (ty : Ty) (old : Val) (v : JTree) (t t' : Bytes)
    (hskip : v.skippable (jsem conv) = true) (hdoc : JDoc codePair v t) (hdoc' : JDoc codePair (prune (jsem conv) env v ty) t') :
    jsonImport env cfg conv ty old t = jsonImport env cfg conv ty old t' := by
  rw [jsonImport_doc env cfg hdoc ty old (.inl fun _ => hskip),
    jsonImport_doc env cfg hdoc' ty old (.inl fun _ => skippable_prune (jsem conv) env v ty hskip)]
  exact (imp_prune (jsem conv) env cfg hw v hskip ty old).symm

/-- The sample document `{"first":1,"second":{"b":2,"zz":[3],"x":4}}` into the sample struct `Pair`: the inner
object has an unknown member. -/
private def doc17 : JTree := .obj [(Samples.jstr b!"first", Samples.num 1),
  (Samples.jstr b!"second", .obj [(Samples.jstr b!"b", Samples.num 2), (Samples.jstr b!"zz", .arr [Samples.num 3]), (Samples.jstr b!"x", Samples.num 4)])]

example : Samples.text doc17 = b!"{\"first\":1,\"second\":{\"b\":2,\"zz\":[3],\"x\":4}}" := rfl

/-- C17 is not vacuous: the nested unknown member makes Strict fail, … -/
example (w : Val) : jsonImport Samples.env ⟨.Strict, []⟩ true (.named 2) (Samples.env.dflt 2) (Samples.text doc17) ≠ .ok w :=
  C17_strict_rejects Samples.env ⟨.Strict, []⟩ true (by decide) (.named 2) _ doc17 _ (Samples.plain_doc _ (by decide))
    (.mk [.mk [] [⟨b!"b", b!"b", Samples.int32⟩] none] [⟨b!"x", b!"x", Samples.int32⟩] none) _
    (.cls rfl (.member (k := Samples.jstr b!"second") (.tail _ (.head _)) rfl (.cls rfl .here)))
    (Samples.jstr b!"zz") (.arr [Samples.num 3]) (.tail _ (.head _)) (by decide) w

/-- … and Weak gives what the rest gives. -/
example : jsonImport Samples.env ⟨.Weak, []⟩ true (.named 2) (Samples.env.dflt 2) (Samples.text doc17) =
    .ok (.obj [] [.int 1, .obj [.obj [] [.int 2]] [.int 4]]) := by
  rw [C17_weak_ignores Samples.env ⟨.Weak, []⟩ true rfl (.named 2) _ doc17 _ (Samples.text (prune (jsem true) Samples.env doc17 (.named 2)))
    (by decide) (Samples.plain_doc _ (by decide)) (Samples.plain_doc _ (by decide)),
    jsonImport_doc _ _ (Samples.plain_doc _ (by decide)) _ _ (.inl fun _ => by decide)]
  rfl

example : jsonImport Samples.env ⟨.Strict, []⟩ true (.named 0) (.obj [] [.int 0]) b!"{\"b\":2,\"zz\":1}" = .throw .std := by
  refine C17_strict_throws Samples.env ⟨.Strict, []⟩ true (by decide) 0 _ rfl _ [(Samples.jstr b!"b", Samples.num 2)] []
    (Samples.jstr b!"zz") (Samples.num 1) (by decide) _ b!"{\"b\":2}" (Samples.plain_doc _ (by decide)) (Samples.plain_doc _ (by decide))
    (.obj [] [.int 2]) ?_
  exact Samples.import_plain (.obj [(Samples.jstr b!"b", Samples.num 2)]) (by decide) rfl _ _ _ _ _ (by decide)

/-! ### C18 -/

/-- C18, first half. After a successful import in Exact mode, every object that went into a struct had all the
members of the struct, inherited ones included, under their document names (for structs whose declared
member names are distinct along the inheritance tree). -/
theorem C18_exact_requires_all (env : Env) (cfg : Cfg) (conv : Bool) (hs : cfg.strict = .Exact) (ty : Ty) (old w : Val) (v : JTree) (t : Bytes)
    (hdoc : JDoc codePair v t) (hok : jsonImport env cfg conv ty old t = .ok w) (d : StructDef) (ms : List (JStr × JTree))
    (hin : Inside (jsem conv) env cfg d ms ty v) (hnames : ((allMembers d).map Member.name).Nodup) :
    ∀ m ∈ allMembers d, ∃ k x, (k, x) ∈ ms ∧ k.val conv = m.out := by
  rw [jsonImport_doc env cfg hdoc ty old (.inl fun h => by rw [hs] at h; cases h)] at hok
  exact exact_covers (jsem conv) env cfg hs hin hnames hok

/-- C18, second half, for structs without renamed members: if every struct position of the document has all its
members, Exact mode does exactly what Strict mode does. Missing from the full property: renamed members, see
`C18_false_with_overrides`. -/
theorem C18_exact_is_strict_partial (env : Env) (cfg : Cfg) (conv : Bool) (hs : cfg.strict = .Exact) (ty : Ty) (old : Val) (v : JTree) (t : Bytes)
    (hdoc : JDoc codePair v t)
    (hall : ∀ d ms, Inside (jsem conv) env cfg d ms ty v → ∀ m ∈ allMembers d, m.out = m.name ∧ ∃ k x, (k, x) ∈ ms ∧ k.val conv = m.out) :
    jsonImport env cfg conv ty old t = jsonImport env ⟨.Strict, cfg.marker⟩ conv ty old t := by
  rw [jsonImport_doc env cfg hdoc ty old (.inl fun h => by rw [hs] at h; cases h),
    jsonImport_doc env ⟨.Strict, cfg.marker⟩ hdoc ty old (.inl fun h => by cases h)]
  refine exact_strict (jsem conv) env cfg hs v ty (fun d ms hi m hm => ?_) old
  obtain ⟨e, k, x, h1, h2⟩ := hall d ms hi m hm
  exact ⟨k, x, h1, h2.trans e⟩

/-- C18 is false with renamed members: if the declared name of some member is not the document name of any
member, then in Exact mode no document at all can be imported into the struct, however complete. -/
theorem C18_false_with_overrides (env : Env) (cfg : Cfg) (conv : Bool) (hs : cfg.strict = .Exact) (i : Nat) (c : ClassDef) (hd : env.defs i = .cls c)
    (m : Member) (hm : m ∈ allMembers c.traits) (hren : ∀ n ∈ allMembers c.traits, n.out ≠ m.name) (old w : Val) (v : JTree) (t : Bytes)
    (hdoc : JDoc codePair v t) : jsonImport env cfg conv (.named i) old t ≠ .ok w := by
  rw [jsonImport_doc env cfg hdoc _ old (.inl fun h => by rw [hs] at h; cases h)]
  have hs' : cfg.strict ≠ .Weak := by rw [hs]; simp
  cases v with
  | scalar x => simp only [imp]; rw [impScalar, hd]; simp [throwStd]
  | arr ts => simp only [imp]; rw [impArr, hd]; simp [throwStd]
  | obj ms =>
    simp only [imp]
    rw [impObj, hd]
    simp only
    by_cases hk : ∃ x ∈ imp.members (jsem conv) env cfg ms, (jsem conv).key x.key = m.name
    · obtain ⟨x, hx, e⟩ := hk
      refine unknown_fails (jsem conv) cfg hs' c.traits _ x hx ?_ [] old w
      cases hf : c.traits.find ((jsem conv).key x.key) with
      | none => rfl
      | some s => obtain ⟨n, hn, e', -⟩ := find_out hf; exact absurd (e'.trans e) (hren n hn)
    · exact missing_fails (jsem conv) cfg hs c.traits _ m hm [] old (by simp) (fun x hx e => hk ⟨x, hx, e⟩) w

/-- `{"b":1,"x":2}` is complete for the sample struct `Plain`. -/
private def doc18 : JTree := .obj [(Samples.jstr b!"b", Samples.num 1), (Samples.jstr b!"x", Samples.num 2)]

/-- C18 is not vacuous: a complete document for a struct with an inherited member succeeds in Exact mode, … -/
example : jsonImport Samples.env ⟨.Exact, []⟩ true (.named 5) (Samples.env.dflt 5) (Samples.text doc18) = .ok (.obj [.obj [] [.int 1]] [.int 2]) := by
  rw [jsonImport_doc _ _ (Samples.plain_doc _ (by decide)) _ _ (.inl fun h => by cases h)]
  rfl

/-- … a document without the inherited member fails, … -/
example : jsonImport Samples.env ⟨.Exact, []⟩ true (.named 5) (Samples.env.dflt 5) b!"{\"x\":2}" = .throw .std := by
  exact Samples.import_plain (.obj [(Samples.jstr b!"x", Samples.num 2)]) (by decide) rfl _ _ _ _ _ (by decide)

/-- … the struct position is there, … -/
example : Inside (jsem true) Samples.env ⟨.Exact, []⟩ (.mk [.mk [] [⟨b!"b", b!"b", Samples.int32⟩] none] [⟨b!"x", b!"x", Samples.int32⟩] none)
    [(Samples.jstr b!"b", Samples.num 1), (Samples.jstr b!"x", Samples.num 2)] (.named 5) doc18 := .cls rfl .here

/-- … and the sample struct `Point`, whose member `y` is called `why` in documents, cannot be imported in Exact
mode from the complete document `{"b":1,"x":2,"why":[3]}`. -/
example (w : Val) : jsonImport Samples.env ⟨.Exact, []⟩ true (.named 1) (Samples.env.dflt 1) b!"{\"b\":1,\"x\":2,\"why\":[3]}" ≠ .ok w :=
  C18_false_with_overrides Samples.env ⟨.Exact, []⟩ true rfl 1 _ rfl ⟨b!"y", b!"why", .vec Samples.int32⟩ (by simp [allMembers])
    (by decide) _ w
    (.obj [(Samples.jstr b!"b", Samples.num 1), (Samples.jstr b!"x", Samples.num 2), (Samples.jstr b!"why", .arr [Samples.num 3])]) _
    (Samples.plain_doc _ (by decide))

/-! ### C19 -/

/-- C19. Two documents that differ only in the order of the members of objects that go into structs, at any
depth, are imported to the same value. -/
theorem C19_order_irrelevant (env : Env) (cfg : Cfg) (conv : Bool) (ty : Ty) (old w : Val) (v v' : JTree) (t t' : Bytes)
    (hdoc : JDoc codePair v t) (hdoc' : JDoc codePair v' t') (hre : Reord (jsem conv) env ty v v')
    (hskip : cfg.strict = .Weak → v.skippable (jsem conv) = true)
    (hok : jsonImport env cfg conv ty old t = .ok w) : jsonImport env cfg conv ty old t' = .ok w := by
  rw [jsonImport_doc env cfg hdoc ty old (.inl hskip)] at hok
  have := imp_reord (jsem conv) env cfg hre old w hok
  rw [jsonImport_doc env cfg hdoc' ty old (.inr (by rw [this]; simp)), this]

/-- C19 is not vacuous: inner and outer members exchanged. -/
example : jsonImport Samples.env ⟨.Exact, []⟩ true (.named 2) (Samples.env.dflt 2) b!"{\"second\":{\"x\":3,\"b\":2},\"first\":1}" =
    .ok (.obj [] [.int 1, .obj [.obj [] [.int 2]] [.int 3]]) := by
  refine C19_order_irrelevant Samples.env ⟨.Exact, []⟩ true (.named 2) _ _
    (.obj [(Samples.jstr b!"first", Samples.num 1), (Samples.jstr b!"second", .obj [(Samples.jstr b!"b", Samples.num 2), (Samples.jstr b!"x", Samples.num 3)])])
    (.obj [(Samples.jstr b!"second", .obj [(Samples.jstr b!"x", Samples.num 3), (Samples.jstr b!"b", Samples.num 2)]), (Samples.jstr b!"first", Samples.num 1)])
    _ _ (Samples.plain_doc _ (by decide)) (Samples.plain_doc _ (by decide)) (.trans (.perm rfl (.swap _ _ []) (by decide))
      (.member (a := []) (b := [(Samples.jstr b!"first", Samples.num 1)]) rfl rfl (.perm rfl (.swap _ _ []) (by decide))))
    (fun h => by cases h) ?_
  rw [jsonImport_doc _ _ (Samples.plain_doc _ (by decide)) _ _ (.inl fun h => by cases h)]
  rfl

end Thors.Props
