import Verif.Props.Export
import Verif.Proofs.JsonRoundTrip
/-
C23: print then parse is the identity. C34: enumerations. C36: polymorphic objects. C41: optional members.
C42: filtered and inherited members.
-/
namespace Thors.Props
open Thors Spec StrIn

/-- What may follow a document in the input: anything; but behind a document that is just a number, nothing
that continues the number (or is taken for the end of the input). -/
def mayFollow (d : Doc) (post : Bytes) : Prop :=
  (∀ k i, d = .scalar (.int k i) → valueEnds post) ∧ ∀ f x, d = .scalar (.flt f x) → valueEnds post

theorem mayFollow_ends {d : Doc} {post : Bytes} (h : mayFollow d post) : Ends (jtree streamText d) post := by
  cases d with
  | scalar a =>
    cases a with
    | int k i => exact h.1 k i rfl
    | flt f x => exact .of (h.2 f x rfl)
    | _ => trivial
  | _ => trivial

/-- C23, for documents whose keys need no escaping (C21), whose indentation fits (C25) and whose floating point values are
described by six significant digits (C65). Every value of every
type that can be represented and brought back at all (`Storable`: no null pointer behind a pointer, polymorphic
classes registered, …) is exported to a text; importing that text, in front of anything, into a fresh object
gives the value, and leaves the input exactly after the document. All layouts, all strictness modes (Exact:
where no member is renamed, filtered or optional). -/
theorem C23_round_trip_partial (env : Env) (pcfg : PrintCfg) (cfg : Cfg) (ty : Ty) (v old : Val) (d : Doc) (post : Bytes)
    (hg : GoodTypes env) (hnf : ∀ i c, env.defs i = .cls c → NoFilter c.traits)
    (hm : cfg.marker = pcfg.marker) (hx : cfg.strict = .Exact → ExactTypes env)
    (hd : docOf env pcfg.marker ty v = .ok d) (hs : Storable env pcfg.marker ty v) (ho : Fresh env ty old)
    (hk : AllKeys cleanKey d) (ha : AllScalars sixAtom d) (hf : FitsIndent pcfg (nesting d)) (hp : mayFollow d post) :
    ∃ text p, jsonExport env pcfg ty v = .ok text ∧
      importValue JsonP.ops env cfg ty old (PI.init (JsonP.ofBytes (text ++ post) true)) = .ok (v, p) ∧ p.inner.lex.inp.rest = post := by
  have := json_round_trip env pcfg cfg ty v old d post hg hm hx hd hs ho hk ha hf (mayFollow_ends hp)
  rwa [restored_val env pcfg.marker hg hnf v ty old hs ho] at this

/-- Sample program:
 * 0: `struct Base { int id; }`
 * 1: `struct Node : Base { std::optional<std::string> note; std::vector<int> xs; std::unique_ptr<bool> p; Colour c;
   std::map<std::string, unsigned char> m; Base* next; std::tuple<int,bool> t; Shape s; }`; `c` is called `colour` in documents
 * 2: `enum Colour`, 3: `std::tuple<int,bool>`, 4: `std::variant<Base, Node>` -/
def rtEnv : Env where
  defs
    | 0 => .cls ⟨.mk [] [⟨b!"id", b!"id", Samples.int32⟩] none, b!"Base", none⟩
    | 1 => .cls ⟨.mk [.mk [] [⟨b!"id", b!"id", Samples.int32⟩] none]
        [⟨b!"note", b!"note", .opt .str⟩, ⟨b!"xs", b!"xs", .vec Samples.int32⟩, ⟨b!"p", b!"p", .uptr .bool⟩, ⟨b!"c", b!"colour", .named 2⟩,
         ⟨b!"m", b!"m", .smap (.int ⟨8, false⟩)⟩, ⟨b!"next", b!"next", .pptr 0⟩, ⟨b!"t", b!"t", .named 3⟩, ⟨b!"s", b!"s", .named 4⟩] none, b!"Node", none⟩
    | 2 => .enum [(0, b!"Red"), (5, b!"Green")]
    | 3 => .tuple [Samples.int32, .bool]
    | 4 => .variant [0, 1]
    | _ => .enum []
  dflt
    | 0 => .obj [] [.int 0]
    | 1 => .obj [.obj [] [.int 0]] [.none, .list [], .null, .enum 0, .dict [], .null, .list [.int 0, .bool false], .alt 0 (.obj [] [.int 0])]
    | 2 => .enum 0
    | 3 => .list [.int 0, .bool false]
    | 4 => .alt 0 (.obj [] [.int 0])
    | _ => .enum 0
  registry := [(b!"Base", 0), (b!"Node", 1)]
  derives c b := decide (c = b) || decide (b = 0)

theorem rtEnv_good : GoodTypes rtEnv where
  names i c h := by
    match i with
    | 0 | 1 => simp only [rtEnv, TypeDef.cls.injEq] at h; subst h; decide
    | 2 | 3 | 4 => simp [rtEnv] at h
    | n + 5 => simp [rtEnv] at h
  enums i t h := by
    match i with
    | 0 | 1 | 3 | 4 => simp [rtEnv] at h
    | 2 => simp only [rtEnv, TypeDef.enum.injEq] at h; subst h; decide
    | n + 5 => simp only [rtEnv, TypeDef.enum.injEq] at h; subst h; decide
  fresh i := by
    match i with
    | 0 | 1 | 2 | 3 | 4 => simp [rtEnv, Fresh, FreshOwn, FreshParents, FreshTuple, Samples.int32]
    | n + 5 => simp [rtEnv, Fresh]

theorem rtEnv_noFilter : ∀ i c, rtEnv.defs i = .cls c → NoFilter c.traits := by
  intro i c h
  match i with
  | 0 | 1 => simp only [rtEnv, TypeDef.cls.injEq] at h; subst h; simp [NoFilter, NoFilter.all]
  | 2 | 3 | 4 => simp [rtEnv] at h
  | n + 5 => simp [rtEnv] at h

/-- A node with a note, pointing to a node without one. -/
def leaf : Val := .obj [.obj [] [.int 9]] [.none, .list [], .null, .enum 0, .dict [], .null, .list [.int (-3), .bool true], .alt 0 (.obj [] [.int 77])]
def node : Val := .obj [.obj [] [.int (-12)]] [.some (.str b!"say \"hi\"\n"), .list [.int 1, .int (-2)], .ptr (.bool true), .enum 5,
  .dict [(b!"a", .int 255), (b!"b", .int 0)], .dyn 1 leaf, .list [.int 4, .bool false], .alt 1 leaf]

def leafDoc : List (Bytes × Doc) :=
  [(b!"xs", .arr []), (b!"p", .scalar .null), (b!"colour", .scalar (.str b!"Red")),
   (b!"m", .obj []), (b!"next", .scalar .null), (b!"t", .arr [.scalar (.int ⟨32, true⟩ (-3)), .scalar (.bool true)]),
   (b!"s", .obj [(b!"__type", .scalar (.str b!"Base")), (b!"id", .scalar (.int ⟨32, true⟩ 77))]), (b!"id", .scalar (.int ⟨32, true⟩ 9))]
def nodeDoc : Doc := .obj
  [(b!"note", .scalar (.str b!"say \"hi\"\n")), (b!"xs", .arr [.scalar (.int ⟨32, true⟩ 1), .scalar (.int ⟨32, true⟩ (-2))]), (b!"p", .scalar (.bool true)),
   (b!"colour", .scalar (.str b!"Green")), (b!"m", .obj [(b!"a", .scalar (.int ⟨8, false⟩ 255)), (b!"b", .scalar (.int ⟨8, false⟩ 0))]),
   (b!"next", .obj ((b!"__type", .scalar (.str b!"Node")) :: leafDoc)), (b!"t", .arr [.scalar (.int ⟨32, true⟩ 4), .scalar (.bool false)]),
   (b!"s", .obj ((b!"__type", .scalar (.str b!"Node")) :: leafDoc)), (b!"id", .scalar (.int ⟨32, true⟩ (-12)))]

theorem node_doc : docOf rtEnv [] (.named 1) node = .ok nodeDoc := by
  simp [docOf, docOwn, docParents, docList, docTuple, docDict, node, leaf, rtEnv, Samples.int32, shown, nodeDoc, leafDoc, polyMarker, List.lookup]

theorem node_storable : Storable rtEnv [] (.named 1) node := by
  simp [Storable, StorableOwn, StorableParents, StorableList, StorableTuple, StorableDict, node, leaf, rtEnv, Samples.int32, polyMarker, nullable,
    keysOrdered, List.lookup]
  repeat' apply And.intro
  all_goals first
    | exact True.intro
    | decide
    | (intro a d ha h hn
       rcases ha with rfl | rfl
       · simp at h; subst h; simp at hn ⊢
       · simp at h; subst h; simp at hn ⊢)

/-- non-vacuity of C23: all hypotheses hold of `node` (everything but Exact mode, where optionals do not work). -/
example : ∃ text p, jsonExport rtEnv {} (.named 1) node = .ok text ∧
      importValue JsonP.ops rtEnv ⟨.Strict, []⟩ (.named 1) (rtEnv.dflt 1) (PI.init (JsonP.ofBytes (text ++ b!"tail") true)) = .ok (node, p) ∧
      p.inner.lex.inp.rest = b!"tail" :=
  C23_round_trip_partial rtEnv {} ⟨.Strict, []⟩ (.named 1) node (rtEnv.dflt 1) nodeDoc _ rtEnv_good rtEnv_noFilter rfl (by simp) node_doc
    node_storable (rtEnv_good.fresh 1) (by simp [nodeDoc, leafDoc, AllKeys, AllKeys.members, AllKeys.elems]; decide)
    (by simp [nodeDoc, leafDoc, AllScalars, AllScalars.members, AllScalars.elems, sixAtom])
    (.inr (by intro k hk; simp only [indentation]; simp; simp [nodeDoc, leafDoc, nesting, nesting.members, nesting.elems] at hk; omega))
    ⟨by intro k i h; simp [nodeDoc] at h, by intro k i h; simp [nodeDoc] at h⟩

/-- C23 without these restrictions is false. (1) A map with a key that needs escaping (C21) comes back with another
key. (2) A `std::unique_ptr<std::unique_ptr<T>>` to a null pointer comes back as a null pointer. -/
theorem C23_false (env : Env) (cfg : Cfg) :
    (∃ v text, jsonExport env {} (.smap Samples.int32) v = .ok text ∧ jsonImport env cfg true (.smap Samples.int32) (.dict []) text ≠ .ok v ∧
      keysOrdered .sorted (match v with | .dict kvs => kvs.map Prod.fst | _ => [])) ∧
    (∃ text, jsonExport env {} (.uptr (.uptr .bool)) (.ptr .null) = .ok text ∧
      jsonImport env cfg true (.uptr (.uptr .bool)) .null text = .ok .null) := by
  constructor
  · obtain ⟨-, k, text, e, k', hne, h⟩ := C21_false env cfg
    refine ⟨_, _, e, ?_, by simp [keysOrdered, oneKey]⟩
    rw [h]
    simp [oneKey, hne]
  · have hd : docOf env [] (.uptr (.uptr .bool)) (.ptr .null) = .ok (.scalar .null) := rfl
    obtain ⟨w, tv, ws, ss, hw, ht, -, -, e⟩ := export_doc env {} _ _ _ hd (.inr (by intro k hk; simp only [indentation]; simp; simp [nesting] at hk; omega))
    refine ⟨_, e, ?_⟩
    have := jsonImport_post env cfg (conv := true) (post := []) hw (ptext_jtext codePair (.scalar .null) tv trivial (ft := streamText) trivial ht) trivial (.uptr (.uptr .bool)) .null
    rw [List.append_nil] at this
    rw [this (.inl fun _ => rfl)]
    rfl

/-! ### C34 -/

/-- C34, registered values: exported and imported again, they are themselves; names in the table are distinct. Any
layout, any mode, any object to import into. -/
theorem C34_enum_round_trip (env : Env) (pcfg : PrintCfg) (cfg : Cfg) (i : Nat) (table : List (Int × Bytes)) (hd : env.defs i = .enum table)
    (hn : (table.map Prod.snd).Nodup) (e : Int) (he : e ∈ table.map Prod.fst) (old : Val)
    (hf : FitsIndent pcfg 0) :
    ∃ text, jsonExport env pcfg (.named i) (.enum e) = .ok text ∧ jsonImport env cfg true (.named i) old text = .ok (.enum e) := by
  obtain ⟨name, hl⟩ : ∃ name, table.lookup e = some name := by
    cases h : table.lookup e with
    | some n => exact ⟨n, rfl⟩
    | none =>
      rw [List.lookup_eq_none_iff] at h
      obtain ⟨⟨a, b⟩, h1, h2⟩ := List.mem_map.1 he
      have := h _ h1
      simp only at h2
      subst h2
      simp at this
  have hdoc : docOf env pcfg.marker (.named i) (.enum e) = .ok (.scalar (.str name)) := by simp [docOf, hd, hl]
  obtain ⟨w, tv, ws, ss, hw, ht, -, -, ex⟩ := export_doc env pcfg _ _ _ hdoc hf
  refine ⟨_, ex, ?_⟩
  have himp : imp (jsem true) env cfg (jtree streamText (.scalar (.str name))) (.named i) old = .ok (.enum e) := by
    simp [jtree, jscalar, imp, impScalar, hd, jsem, JStr.val, enumOf_lookup hn hl]
  have := jsonImport_post env cfg (conv := true) (post := []) hw (ptext_jtext codePair (.scalar (.str name)) tv trivial (ft := streamText) trivial ht) trivial (.named i) old
    (.inr (by rw [himp]; intro h; cases h))
  rw [List.append_nil] at this
  rw [this, himp]

/-- C34, foreign names: a string that is no name of the enumeration is rejected. -/
theorem C34_foreign_name_rejected (env : Env) (cfg : Cfg) (conv : Bool) (i : Nat) (table : List (Int × Bytes)) (hd : env.defs i = .enum table)
    (s : JStr) (t : Bytes) (ht : JDoc codePair (.scalar (.str s)) t) (hs : s.val conv ∉ table.map Prod.snd) (old : Val) :
    jsonImport env cfg conv (.named i) old t = .throw .std := by
  have hnone : enumOf table (s.val conv) = none := by
    simp only [enumOf, Option.map_eq_none_iff, List.find?_eq_none]
    intro x hx
    intro h
    exact hs (List.mem_map.2 ⟨x, hx, by simpa using h⟩)
  have himp : imp (jsem conv) env cfg (.scalar (.str s)) (.named i) old = .throw .std := by
    simp [imp, impScalar, hd, jsem, hnone, throwStd]
  rw [jsonImport_doc env cfg ht _ _ (.inr (by rw [himp]; intro h; cases h)), himp]

/-- C34, unregistered values are rejected on export. -/
theorem C34_unregistered_value_rejected (env : Env) (pcfg : PrintCfg) (i : Nat) (table : List (Int × Bytes)) (hd : env.defs i = .enum table)
    (e : Int) (he : e ∉ table.map Prod.fst) : jsonExport env pcfg (.named i) (.enum e) = .throw .std := by
  have : table.lookup e = none := by
    rw [List.lookup_eq_none_iff]
    rintro ⟨a, b⟩ h
    simp only [bne_iff_ne, ne_eq]
    rintro rfl
    exact he (List.mem_map.2 ⟨_, h, rfl⟩)
  exact export_fails env pcfg _ _ _ (by simp [docOf, hd, this, throwStd])

example : ∃ text, jsonExport rtEnv {} (.named 2) (.enum 5) = .ok text ∧ jsonImport rtEnv ⟨.Exact, []⟩ true (.named 2) (.enum 0) text = .ok (.enum 5) :=
  C34_enum_round_trip rtEnv {} ⟨.Exact, []⟩ 2 _ rfl (by decide) 5 (by decide) _ (fits_default [] false 0 (by decide))

example : jsonImport rtEnv ⟨.Exact, []⟩ true (.named 2) (.enum 0) b!"\"green\"" = .throw .std :=
  C34_foreign_name_rejected rtEnv _ true 2 _ rfl (Samples.jstr b!"green") _ (Samples.plain_doc (.scalar (.str (Samples.jstr b!"green"))) (by decide))
    (by decide) _

example : jsonExport rtEnv {} (.named 2) (.enum 1) = .throw .std := C34_unregistered_value_rejected rtEnv {} 2 _ rfl 1 (by decide)

/-! ### C36 -/

/-- The name under which the class name of an object of class `b` (or derived from it) is stored, in the words of the documentation: the
configured one; if none is configured, that of the class; if it has none, `__type`. -/
def markerOf (configured : Bytes) (ofClass : Option Bytes) : Bytes :=
  match configured, ofClass with
  | [], none => b!"__type"
  | [], some name => name
  | c :: cs, _ => c :: cs

theorem markerOf_eq {env : Env} {b : Nat} {bd : ClassDef} (hb : env.defs b = .cls bd) (mk : Bytes) : polyMarker env mk b = markerOf mk bd.typeField := by
  unfold polyMarker markerOf
  rw [hb]
  cases mk <;> cases hf : bd.typeField <;> simp [hf]

/-- C36. An object of class `c` behind a pointer to class `b`, with `c` registered under its name, derived from `b`
and sharing its marker: the export is an object that starts with the class name under the marker, and importing it
gives an object of class `c` with the same members. -/
theorem C36_dynamic_class_restored_partial (env : Env) (pcfg : PrintCfg) (cfg : Cfg) (b c : Nat) (bd cd : ClassDef) (ps fs : List Val) (old : Val) (d : Doc)
    (hg : GoodTypes env) (hnf : ∀ i c, env.defs i = .cls c → NoFilter c.traits)
    (hm : cfg.marker = pcfg.marker) (hx : cfg.strict = .Exact → ExactTypes env) (hb : env.defs b = .cls bd) (hc : env.defs c = .cls cd)
    (hd : docOf env pcfg.marker (.pptr b) (.dyn c (.obj ps fs)) = .ok d) (hs : Storable env pcfg.marker (.pptr b) (.dyn c (.obj ps fs)))
    (hk : AllKeys cleanKey d) (ha : AllScalars sixAtom d) (hf : FitsIndent pcfg (nesting d)) :
    ∃ text k m ms, jsonExport env pcfg (.pptr b) (.dyn c (.obj ps fs)) = .ok text ∧ JDoc rfcPair (.obj ((k, .scalar (.str m)) :: ms)) text ∧
      k.dec = markerOf pcfg.marker bd.typeField ∧ m.dec = cd.serName ∧
      jsonImport env cfg true (.pptr b) old text = .ok (.dyn c (.obj ps fs)) := by
  have ho : Fresh env (.pptr b) old := by simp [Fresh]
  obtain ⟨text, p, h1, h2, -⟩ := json_round_trip env pcfg cfg _ _ old d [] hg hm hx hd hs ho hk ha hf (.of trivial)
  rw [restored_val env pcfg.marker hg hnf _ _ old hs ho, List.append_nil] at h2
  obtain ⟨w, tv, ws, ss, hw, ht, -, -, e⟩ := export_doc env pcfg _ _ d hd hf
  rw [h1] at e
  cases e
  have hdoc : JDoc rfcPair (jtree streamText d) (w ++ tv) :=
    ⟨w, tv, [], hw, by simp [Ws], ptext_jtext rfcPair d tv hk (AllScalars.imp (fun _ h => finite_ok (six_ok h)) d ha) ht, by simp⟩
  obtain ⟨⟨dps, ms, f⟩, name, field⟩ := cd
  simp only [docOf, hc] at hd
  obtain ⟨own, -, hd⟩ := Res.bind_eq_ok.1 hd
  obtain ⟨up, -, hd⟩ := Res.bind_eq_ok.1 hd
  cases hd
  rw [Storable, hc] at hs
  refine ⟨_, ⟨_, _⟩, ⟨_, _⟩, _, h1, hdoc, ?_, rfl, by rw [jsonImport, h2]; rfl⟩
  exact hs.2.2.1.trans (markerOf_eq hb _)

/-- C36: an unregistered class name is rejected, whatever follows it. -/
theorem C36_unknown_class_rejected (env : Env) (cfg : Cfg) (conv : Bool) (b : Nat) (bd : ClassDef) (hb : env.defs b = .cls bd) (k s : JStr) (ms : List (JStr × JTree)) (t : Bytes)
    (ht : JDoc codePair (.obj ((k, .scalar (.str s)) :: ms)) t) (hk : k.val conv = markerOf cfg.marker bd.typeField)
    (hr : env.registry.lookup (s.val conv) = none) (old : Val) : jsonImport env cfg conv (.pptr b) old t = .throw .std := by
  have himp : imp (jsem conv) env cfg (.obj ((k, .scalar (.str s)) :: ms)) (.pptr b) old = .throw .std := by
    simp only [imp, imp.members, impObj, className]
    rw [if_neg (by simp [jsem, hk, markerOf_eq hb])]
    simp [jsem, hr, throwStd]
  rw [jsonImport_doc env cfg ht _ _ (.inr (by rw [himp]; intro h; cases h)), himp]

example : ∃ text k m ms, jsonExport rtEnv {} (.pptr 0) (.dyn 1 leaf) = .ok text ∧ JDoc rfcPair (.obj ((k, .scalar (.str m)) :: ms)) text ∧
      k.dec = b!"__type" ∧ m.dec = b!"Node" ∧ jsonImport rtEnv ⟨.Weak, []⟩ true (.pptr 0) .null text = .ok (.dyn 1 leaf) :=
  C36_dynamic_class_restored_partial rtEnv {} ⟨.Weak, []⟩ 0 1 _ _ _ _ .null (.obj ((b!"__type", .scalar (.str b!"Node")) :: leafDoc)) rtEnv_good rtEnv_noFilter rfl (by simp) rfl rfl
    (by simp [docOf, docOwn, docParents, docList, docTuple, docDict, rtEnv, Samples.int32, shown, leafDoc, polyMarker, List.lookup])
    (by
      have := node_storable
      simp only [node, Storable, rtEnv, StorableOwn, leaf] at this ⊢
      exact this.2.1.2.2.2.2.2.1)
    (by simp [leafDoc, AllKeys, AllKeys.members, AllKeys.elems]; decide)
    (by simp [leafDoc, AllScalars, AllScalars.members, AllScalars.elems, sixAtom])
    (fits_default [] false _ (by simp [leafDoc, nesting, nesting.members, nesting.elems]))

example : jsonImport rtEnv ⟨.Weak, []⟩ true (.pptr 0) .null b!"{\"__type\":\"Edge\",\"id\":3}" = .throw .std :=
  C36_unknown_class_rejected rtEnv ⟨.Weak, []⟩ true 0 _ rfl (Samples.jstr b!"__type") (Samples.jstr b!"Edge") [(Samples.jstr b!"id", Samples.num 3)] _
    (Samples.plain_doc (.obj [(Samples.jstr b!"__type", .scalar (.str (Samples.jstr b!"Edge"))), (Samples.jstr b!"id", Samples.num 3)]) (by decide))
    rfl rfl _

/-! ### C41 and C42: which members are written -/

/-- Own members to be written: with a user filter those it lets pass, without one all but the empty optionals. -/
def passes (f : Option (Val → Bytes → Bool)) (self : Val) (m : Member) (v : Val) : Bool :=
  match f, m.ty, v with
  | some f, _, _ => f self m.name
  | none, .opt _, .none => false
  | none, _, _ => true

theorem passes_shown (f : Option (Val → Bytes → Bool)) (self : Val) (m : Member) (v : Val) : shown f self m v ↔ passes f self m v = true := by
  obtain ⟨n, o, t⟩ := m
  cases f with
  | some f => simp [shown, passes]
  | none => cases t <;> cases v <;> simp [shown, passes]

def ownNames (f : Option (Val → Bytes → Bool)) (self : Val) (ms : List Member) (fs : List Val) : List Bytes :=
  ((ms.zip fs).filter (fun (m, v) => passes f self m v)).map (fun (m, _) => m.out)

/-- The names of all members written for an object: the own ones, then for each parent all of its. -/
def memberNames : StructDef → Val → List Bytes
  | .mk dps ms f, .obj ps fs => ownNames f (.obj ps fs) ms fs ++ inherited dps ps
  | _, _ => []
where inherited : List StructDef → List Val → List Bytes
  | d :: ds, v :: vs => memberNames d v ++ inherited ds vs
  | _, _ => []

theorem docOwn_names (env : Env) (mk : Bytes) (f : Option (Val → Bytes → Bool)) (self : Val) : ∀ (ms : List Member) (fs : List Val) (ds : List (Bytes × Doc)),
    docOwn env mk f self ms fs = .ok ds → ds.map Prod.fst = ownNames f self ms fs
  | [], [], ds, h => by simp [docOwn] at h; subst h; rfl
  | [], _ :: _, ds, h => by simp [docOwn] at h
  | _ :: _, [], ds, h => by simp [docOwn] at h
  | m :: ms, v :: fs, ds, h => by
    rw [docOwn] at h
    by_cases hs : shown f self m v
    · rw [if_pos hs] at h
      obtain ⟨a, -, h⟩ := Res.bind_eq_ok.1 h
      obtain ⟨b, hb, h⟩ := Res.bind_eq_ok.1 h
      cases h
      have := docOwn_names env mk f self ms fs b hb
      rw [passes_shown] at hs
      simp only [ownNames] at this ⊢
      simp [hs, this]
    · rw [if_neg hs] at h
      have := docOwn_names env mk f self ms fs ds h
      rw [passes_shown] at hs
      simp only [ownNames] at this ⊢
      simp [hs, this]

theorem docParents_names (env : Env) (mk : Bytes) : ∀ (dps : List StructDef) (ps : List Val) (ds : List (Bytes × Doc)),
    docParents env mk dps ps = .ok ds → ds.map Prod.fst = memberNames.inherited dps ps
  | [], ps, ds, h => by
    cases ps with
    | nil => simp [docParents] at h; subst h; simp [memberNames.inherited]
    | cons _ _ => simp [docParents] at h
  | .mk dps ms f :: dss, ps, ds, h => by
    cases ps with
    | nil => simp [docParents] at h
    | cons v vs =>
      cases v with
      | obj ps fs =>
        rw [docParents] at h
        obtain ⟨a, ha, h⟩ := Res.bind_eq_ok.1 h
        obtain ⟨b, hb, h⟩ := Res.bind_eq_ok.1 h
        obtain ⟨c, hc, h⟩ := Res.bind_eq_ok.1 h
        cases h
        rw [List.map_append, List.map_append, docOwn_names env mk _ _ ms fs a ha, docParents_names env mk dps ps b hb,
          docParents_names env mk dss vs c hc, memberNames.inherited, memberNames]
      | _ => simp [docParents] at h

theorem denotes_names : ∀ (ms : List (JStr × JTree)) (ds : List (Bytes × Doc)), Denotes.members ms ds → ms.map (fun m => m.1.dec) = ds.map Prod.fst
  | [], [], _ => rfl
  | [], _ :: _, h => h.elim
  | (_, _) :: _, [], h => h.elim
  | (k, t) :: ms, (k', d) :: ds, h => by simp [denotes_names ms ds h.2.2, h.1]

/-- C42 (and C41, see below), writing: the export of an object is a JSON object whose members are exactly the own
members that are to be written, in order, then all those of the parents (each parent's own, then its parents'). (A class with
its own type field name has that in front.) Every inheritance tree, every filter, every layout. -/
theorem C42_written_members (env : Env) (pcfg : PrintCfg) (i : Nat) (cd : ClassDef) (ps fs : List Val) (d : Doc) (hc : env.defs i = .cls cd)
    (hd : docOf env pcfg.marker (.named i) (.obj ps fs) = .ok d) (hk : AllKeys cleanKey d)
    (ha : AllScalars finiteAtom d) (hf : FitsIndent pcfg (nesting d)) :
    ∃ text ms, jsonExport env pcfg (.named i) (.obj ps fs) = .ok text ∧ JDoc rfcPair (.obj ms) text ∧
      ms.map (fun m => m.1.dec) = (if cd.typeField.isSome then [polyMarker env pcfg.marker i] else []) ++ memberNames cd.traits (.obj ps fs) := by
  obtain ⟨text, t, h1, h2, h3⟩ := C20_export_is_well_formed env pcfg (.named i) _ d hd hk ha hf
  obtain ⟨⟨dps, ms, f⟩, name, field⟩ := cd
  simp only [docOf, hc] at hd
  obtain ⟨own, h4, hd⟩ := Res.bind_eq_ok.1 hd
  obtain ⟨up, h5, hd⟩ := Res.bind_eq_ok.1 hd
  cases hd
  cases t with
  | obj ms' =>
    refine ⟨text, ms', h1, h2, ?_⟩
    rw [denotes_names _ _ h3]
    rw [List.map_append, List.map_append, docOwn_names env _ _ _ _ _ _ h4, docParents_names env _ _ _ _ h5, memberNames]
    congr 1
    split <;> rfl
  | _ => exact h3.elim

theorem restoredOwn_get (env : Env) (f : Option (Val → Bytes → Bool)) (self : Val) : ∀ (ms : List Member) (os vs : List Val),
    FreshOwn env ms os → os.length = vs.length → (restoredOwn env f self ms os vs).length = ms.length ∧
    ∀ (j : Nat) m o v, ms[j]? = some m → os[j]? = some o → vs[j]? = some v →
      (restoredOwn env f self ms os vs)[j]? = some (if passes f self m v then restored env m.ty o v else o)
  | [], [], vs, _, hl => by
    have : vs = [] := List.length_eq_zero_iff.1 hl.symm
    subst this
    simp [restoredOwn]
  | [], _ :: _, _, h, _ => by simp [FreshOwn] at h
  | _ :: _, [], _, h, _ => by simp [FreshOwn] at h
  | m :: ms, o :: os, [], _, hl => by simp at hl
  | m :: ms, o :: os, v :: vs, h, hl => by
    rw [FreshOwn] at h
    obtain ⟨h1, h2⟩ := restoredOwn_get env f self ms os vs h.2 (by simpa using hl)
    rw [restoredOwn]
    refine ⟨by simp [h1], ?_⟩
    intro j m' o' v' hm ho hv
    cases j with
    | zero =>
      simp at hm ho hv
      subst hm ho hv
      simp [passes_shown]
    | succ j => simpa using h2 j m' o' v' (by simpa using hm) (by simpa using ho) (by simpa using hv)

theorem docOwn_length (env : Env) (mk : Bytes) (f : Option (Val → Bytes → Bool)) (self : Val) : ∀ (ms : List Member) (fs : List Val) (ds : List (Bytes × Doc)),
    docOwn env mk f self ms fs = .ok ds → ms.length = fs.length
  | [], [], ds, h => rfl
  | [], _ :: _, ds, h => by simp [docOwn] at h
  | _ :: _, [], ds, h => by simp [docOwn] at h
  | m :: ms, v :: fs, ds, h => by
    rw [docOwn] at h
    split at h
    · obtain ⟨a, -, h⟩ := Res.bind_eq_ok.1 h
      obtain ⟨b, hb, h⟩ := Res.bind_eq_ok.1 h
      simp [docOwn_length env mk f self ms fs b hb]
    · simp [docOwn_length env mk f self ms fs ds h]

theorem freshOwn_length (env : Env) : ∀ (ms : List Member) (os : List Val), FreshOwn env ms os → ms.length = os.length
  | [], [], _ => rfl
  | [], _ :: _, h => by simp [FreshOwn] at h
  | _ :: _, [], h => by simp [FreshOwn] at h
  | m :: ms, o :: os, h => by rw [FreshOwn] at h; simp [freshOwn_length env ms os h.2]

/-- C42, reading: import of the export into a fresh object gives the members that were written; hidden ones keep
the value they have in the fresh object. -/
theorem C42_read_back (env : Env) (pcfg : PrintCfg) (cfg : Cfg) (i : Nat) (dps : List StructDef) (ms : List Member)
    (f : Option (Val → Bytes → Bool)) (name : Bytes) (ps fs ops ofs : List Val) (d : Doc)
    (hc : env.defs i = .cls ⟨.mk dps ms f, name, none⟩) (hg : GoodTypes env) (hm : cfg.marker = pcfg.marker) (hx : cfg.strict = .Exact → ExactTypes env)
    (hd : docOf env pcfg.marker (.named i) (.obj ps fs) = .ok d) (hs : Storable env pcfg.marker (.named i) (.obj ps fs))
    (ho : Fresh env (.named i) (.obj ops ofs)) (hk : AllKeys cleanKey d) (ha : AllScalars sixAtom d) (hf : FitsIndent pcfg (nesting d)) :
    ∃ text ps' fs', jsonExport env pcfg (.named i) (.obj ps fs) = .ok text ∧
      jsonImport env cfg true (.named i) (.obj ops ofs) text = .ok (.obj ps' fs') ∧
      fs'.length = ms.length ∧
      (∀ (j : Nat) m o v, ms[j]? = some m → ofs[j]? = some o → fs[j]? = some v →
        fs'[j]? = some (if passes f (.obj ps fs) m v then restored env m.ty o v else o)) ∧
      ps' = restoredParents env dps ops ps := by
  obtain ⟨text, p, h1, h2, -⟩ := json_round_trip env pcfg cfg _ _ _ d [] hg hm hx hd hs ho hk ha hf (.of trivial)
  rw [List.append_nil] at h2
  simp only [docOf, hc] at hd
  obtain ⟨own, h4, -⟩ := Res.bind_eq_ok.1 hd
  rw [Fresh, hc] at ho
  have hr := restoredOwn_get env f (.obj ps fs) ms ofs fs ho.1 (by rw [← freshOwn_length env ms ofs ho.1, docOwn_length env _ _ _ _ _ _ h4])
  refine ⟨text, restoredParents env dps ops ps, restoredOwn env f (.obj ps fs) ms ofs fs, h1, ?_, hr.1, hr.2, rfl⟩
  simp only [jsonImport, h2, restored, hc]
  rfl

/-- Without filters the parents come back as they were. -/
theorem C42_parents_read_back (env : Env) (mk : Bytes) (hg : GoodTypes env) (hnf : ∀ i c, env.defs i = .cls c → NoFilter c.traits)
    (dps : List StructDef) (ps ops : List Val) (h1 : NoFilter.all dps) (h2 : StorableParents env mk dps ps) (h3 : FreshParents env dps ops) :
    restoredParents env dps ops ps = ps := restored_parents env mk hg hnf ps dps ops h1 h2 h3

/-- Sample: `struct Secret : Base { int key; std::optional<int> hint; int shown; }` with a filter that hides `key` if `shown` is 0. -/
def hide : Val → Bytes → Bool
  | .obj _ [_, _, .int 0], n => n != b!"key"
  | _, _ => true

def fEnv : Env where
  defs
    | 0 => .cls ⟨.mk [.mk [] [⟨b!"id", b!"id", Samples.int32⟩] none]
      [⟨b!"key", b!"key", Samples.int32⟩, ⟨b!"hint", b!"hint", .opt Samples.int32⟩, ⟨b!"shown", b!"shown", Samples.int32⟩] (some hide), b!"Secret", none⟩
    | _ => .enum []
  dflt
    | 0 => .obj [.obj [] [.int 0]] [.int 0, .none, .int 0]
    | _ => .enum 0
  registry := []
  derives _ _ := false

theorem fEnv_good : GoodTypes fEnv where
  names i c h := by
    match i with
    | 0 => simp only [fEnv, TypeDef.cls.injEq] at h; subst h; decide
    | n + 1 => simp [fEnv] at h
  enums i t h := by
    match i with
    | 0 => simp [fEnv] at h
    | n + 1 => simp only [fEnv, TypeDef.enum.injEq] at h; subst h; decide
  fresh i := by
    match i with
    | 0 => simp [fEnv, Fresh, FreshOwn, FreshParents, Samples.int32]
    | n + 1 => simp [fEnv, Fresh]

def secret : Val := .obj [.obj [] [.int 1]] [.int 42, .some (.int 7), .int 0]
def secretDoc : Doc := .obj [(b!"hint", .scalar (.int ⟨32, true⟩ 7)), (b!"shown", .scalar (.int ⟨32, true⟩ 0)), (b!"id", .scalar (.int ⟨32, true⟩ 1))]

theorem secret_doc : docOf fEnv [] (.named 0) secret = .ok secretDoc := by
  simp [docOf, docOwn, docParents, secret, fEnv, Samples.int32, shown, hide, secretDoc]

theorem secret_storable : Storable fEnv [] (.named 0) secret := by
  simp [Storable, StorableOwn, StorableParents, secret, fEnv, Samples.int32]
  decide

/-- The hidden key is not written, and 5 stays 5. -/
example : ∃ text, jsonExport fEnv {} (.named 0) secret = .ok text ∧
    jsonImport fEnv ⟨.Strict, []⟩ true (.named 0) (.obj [.obj [] [.int 0]] [.int 5, .none, .int 0]) text =
      .ok (.obj [.obj [] [.int 1]] [.int 5, .some (.int 7), .int 0]) := by
  obtain ⟨text, p, h1, h2, -⟩ := json_round_trip fEnv {} ⟨.Strict, []⟩ (.named 0) secret (.obj [.obj [] [.int 0]] [.int 5, .none, .int 0]) secretDoc [] fEnv_good rfl
    (by simp) secret_doc secret_storable (by simp [fEnv, Fresh, FreshOwn, FreshParents, Samples.int32])
    (by simp [secretDoc, AllKeys, AllKeys.members]; decide) (by simp [secretDoc, AllScalars, AllScalars.members, sixAtom])
    (fits_default [] false _ (by simp [secretDoc, nesting, nesting.members])) (.of trivial)
  refine ⟨text, h1, ?_⟩
  rw [List.append_nil] at h2
  rw [jsonImport, h2]
  simp [restored, secret, fEnv, restoredOwn, restoredParents, shown, hide, Samples.int32, Val.contentOr, Ty.default]

example : memberNames (match fEnv.defs 0 with | .cls c => c.traits | _ => .mk [] [] none) secret = [b!"hint", b!"shown", b!"id"] := by decide

/-! ### C41 -/

theorem ownNames_sub (f : Option (Val → Bytes → Bool)) (self : Val) : ∀ (ms : List Member) (fs : List Val), ∀ n ∈ ownNames f self ms fs, n ∈ ms.map Member.out
  | [], fs, n, h => by simp [ownNames] at h
  | m :: ms, [], n, h => by simp [ownNames] at h
  | m :: ms, v :: fs, n, h => by
    have ih := ownNames_sub f self ms fs n
    simp only [ownNames, List.zip_cons_cons, List.filter_cons] at h ih
    split at h
    · simp only [List.map_cons, List.mem_cons] at h ⊢
      exact h.imp_right ih
    · simp only [List.map_cons, List.mem_cons]
      exact .inr (ih h)

theorem memberNames_sub : ∀ (d : StructDef) (v : Val), ∀ n ∈ memberNames d v, n ∈ (allMembers d).map Member.out
  | .mk dps ms f, v, n, h => by
    cases v with
    | obj ps fs =>
      rw [memberNames, List.mem_append] at h
      rw [allMembers, List.map_append, List.mem_append]
      exact h.imp (ownNames_sub f _ ms fs n) (inherited dps ps n)
    | _ => simp [memberNames] at h
where inherited : ∀ (ds : List StructDef) (vs : List Val), ∀ n ∈ memberNames.inherited ds vs, n ∈ (allMembers.inherited ds).map Member.out
  | [], vs, n, h => by simp [memberNames.inherited] at h
  | d :: ds, [], n, h => by simp [memberNames.inherited] at h
  | d :: ds, v :: vs, n, h => by
    rw [memberNames.inherited, List.mem_append] at h
    rw [allMembers.inherited, List.map_append, List.mem_append]
    exact h.imp (memberNames_sub d v n) (inherited ds vs n)

theorem ownNames_mem (f : Option (Val → Bytes → Bool)) (self : Val) : ∀ (ms : List Member) (fs : List Val) (j : Nat) (m : Member) (v : Val),
    (ms.map Member.out).Nodup → ms[j]? = some m → fs[j]? = some v → (m.out ∈ ownNames f self ms fs ↔ passes f self m v = true)
  | [], fs, j, m, v, _, h, _ => by simp at h
  | m :: ms, [], j, m', v, _, _, h => by simp at h
  | m :: ms, v :: fs, 0, m', v', hn, h, h' => by
    simp at h h'
    subst h h'
    rw [List.map_cons, List.nodup_cons] at hn
    constructor
    · intro h
      cases hp : passes f self m v with
      | true => rfl
      | false =>
        exfalso
        apply hn.1
        apply ownNames_sub f self ms fs
        simpa [ownNames, hp] using h
    · intro h
      simp [ownNames, h]
  | m :: ms, v :: fs, j + 1, m', v', hn, h, h' => by
    rw [List.map_cons, List.nodup_cons] at hn
    have ih := ownNames_mem f self ms fs j m' v' hn.2 (by simpa using h) (by simpa using h')
    rw [← ih]
    have hmem : m' ∈ ms := List.mem_of_getElem? (by simpa using h)
    have : m'.out ≠ m.out := fun e => hn.1 (e ▸ List.mem_map.2 ⟨m', hmem, rfl⟩)
    simp only [ownNames, List.zip_cons_cons, List.filter_cons]
    split
    · simp only [List.map_cons, List.mem_cons, this, false_or]
    · rfl

/-- C41, for classes without a user filter. In the export of an object an optional member is present exactly when it is
engaged; importing the text gives the object back, so empty ones stay empty and engaged ones are restored. -/
theorem C41_optional_members_partial (env : Env) (pcfg : PrintCfg) (cfg : Cfg) (i : Nat) (dps : List StructDef) (ms : List Member) (name : Bytes)
    (ps fs : List Val) (old : Val) (d : Doc) (hc : env.defs i = .cls ⟨.mk dps ms none, name, none⟩)
    (hg : GoodTypes env) (hnf : ∀ i c, env.defs i = .cls c → NoFilter c.traits) (hm : cfg.marker = pcfg.marker) (hx : cfg.strict ≠ .Exact)
    (hd : docOf env pcfg.marker (.named i) (.obj ps fs) = .ok d) (hs : Storable env pcfg.marker (.named i) (.obj ps fs))
    (ho : Fresh env (.named i) old) (hk : AllKeys cleanKey d) (ha : AllScalars sixAtom d) (hf : FitsIndent pcfg (nesting d)) :
    ∃ text mem, jsonExport env pcfg (.named i) (.obj ps fs) = .ok text ∧ JDoc rfcPair (.obj mem) text ∧
      (∀ (j : Nat) m v t, ms[j]? = some m → m.ty = .opt t → fs[j]? = some v → (m.out ∈ mem.map (fun m => m.1.dec) ↔ v ≠ .none)) ∧
      jsonImport env cfg true (.named i) old text = .ok (.obj ps fs) := by
  obtain ⟨text, p, h1, h2, -⟩ := json_round_trip env pcfg cfg _ _ old d [] hg hm (fun h => absurd h hx) hd hs ho hk ha hf (.of trivial)
  rw [restored_val env pcfg.marker hg hnf _ _ old hs ho, List.append_nil] at h2
  obtain ⟨text', mem, h3, h4, h5⟩ := C42_written_members env pcfg i _ ps fs d hc hd hk (AllScalars.imp (fun _ h => six_ok h) d ha) hf
  rw [h1] at h3
  cases h3
  refine ⟨text, mem, h1, h4, ?_, by rw [jsonImport, h2]; rfl⟩
  intro j m v t hj ht hv
  rw [h5]
  simp only [Option.isSome, Bool.false_eq_true, if_false, List.nil_append, memberNames, List.mem_append]
  have hn := hg.names i _ hc
  simp only [allMembers, List.map_append] at hn
  rw [List.nodup_append] at hn
  rw [ownNames_mem none _ ms fs j m v hn.1 hj hv]
  have hmem : m.out ∈ ms.map Member.out := List.mem_map.2 ⟨m, List.mem_of_getElem? hj, rfl⟩
  have : m.out ∉ memberNames.inherited dps ps := fun h => hn.2.2 _ hmem _ (memberNames_sub.inherited dps ps _ h) rfl
  simp only [this, or_false]
  obtain ⟨n, o, ty⟩ := m
  simp only at ht
  subst ht
  cases v <;> simp [passes]

/-- C41 is false with a user filter: it replaces the built-in rule, so an empty optional which it does not hide itself makes
the export throw. -/
theorem C41_false : ∃ v, Storable fEnv [] (.named 0) v ∧ jsonExport fEnv {} (.named 0) v = .throw .std := by
  refine ⟨.obj [.obj [] [.int 1]] [.int 42, .none, .int 3], ?_, export_fails _ _ _ _ _ ?_⟩
  · simp [Storable, StorableOwn, StorableParents, fEnv, Samples.int32]; decide
  · simp [docOf, docOwn, fEnv, Samples.int32, shown, hide, throwStd]

example : ∃ text mem, jsonExport rtEnv {} (.named 1) node = .ok text ∧ JDoc rfcPair (.obj mem) text ∧
      b!"note" ∈ mem.map (fun m => m.1.dec) ∧ jsonImport rtEnv ⟨.Weak, []⟩ true (.named 1) (rtEnv.dflt 1) text = .ok node := by
  obtain ⟨text, mem, h1, h2, h3, h4⟩ := C41_optional_members_partial rtEnv {} ⟨.Weak, []⟩ 1 _ _ _ _ _ (rtEnv.dflt 1) nodeDoc rfl rtEnv_good rtEnv_noFilter rfl (by decide)
    node_doc node_storable (rtEnv_good.fresh 1) (by simp [nodeDoc, leafDoc, AllKeys, AllKeys.members, AllKeys.elems]; decide)
    (by simp [nodeDoc, leafDoc, AllScalars, AllScalars.members, AllScalars.elems, sixAtom]) (fits_default [] false _ (by simp [nodeDoc, leafDoc, nesting, nesting.members, nesting.elems]))
  exact ⟨text, mem, h1, h2, (h3 0 _ _ _ rfl rfl rfl).2 (by simp), h4⟩

end Thors.Props
