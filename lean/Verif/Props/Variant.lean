import Verif.Props.RoundTrip
import Verif.Props.Bson
import Verif.Props.Yaml
import Verif.Proofs.Restored
/-
C124. `std::variant` of classes: the alternative that was exported is the one that is imported.
-/
namespace Thors.Props
open Thors Spec StrIn BPrint

/-- Alternatives the import can tell apart: different class names, and the type field that all of them use is the one of the first. -/
def Distinguished (env : Env) (marker : Bytes) (alts : List Nat) : Prop :=
  (∀ a ∈ alts, polyMarker env marker a = polyMarker env marker (alts.headD 0)) ∧
  ∀ a ∈ alts, ∀ b ∈ alts, ∀ d e, env.defs a = .cls d → env.defs b = .cls e → d.serName = e.serName → a = b

private theorem variant_storable {env : Env} {mk : Bytes} {i c : Nat} {alts : List Nat} {dps : List StructDef} {ms : List Member}
    {f : Option (Val → Bytes → Bool)} {name : Bytes} {field : Option Bytes} {ps fs : List Val} (hi : env.defs i = .variant alts) (hv : Distinguished env mk alts)
    (hc : c ∈ alts) (hcd : env.defs c = .cls ⟨.mk dps ms f, name, field⟩) (hs1 : StorableOwn env mk ms fs) (hs2 : StorableParents env mk dps ps) :
    Storable env mk (.named i) (.alt c (.obj ps fs)) := by
  rw [Storable, hi]
  refine ⟨hc, ?_⟩
  rw [hcd]
  exact ⟨hv.1 c hc, fun a d ha hd hn => hv.2 a ha c hc d _ hd hcd hn, hs1, hs2⟩

/-- C124, JSON. A variant holding an object of its alternative `c`: the export starts with the class name, and the import gives a variant
holding an object of the same alternative with the same members, whatever the variant held before. -/
theorem C124_json_partial (env : Env) (pcfg : PrintCfg) (cfg : Cfg) (i c : Nat) (alts : List Nat) (dps : List StructDef) (ms : List Member)
    (f : Option (Val → Bytes → Bool)) (name : Bytes) (field : Option Bytes) (ps fs : List Val) (old : Val) (d : Doc)
    (hg : GoodTypes env) (hnf : ∀ i c, env.defs i = .cls c → NoFilter c.traits) (hm : cfg.marker = pcfg.marker) (hx : cfg.strict = .Exact → ExactTypes env)
    (hi : env.defs i = .variant alts) (hv : Distinguished env pcfg.marker alts) (hc : c ∈ alts) (hcd : env.defs c = .cls ⟨.mk dps ms f, name, field⟩)
    (hs1 : StorableOwn env pcfg.marker ms fs) (hs2 : StorableParents env pcfg.marker dps ps) (ho : Fresh env (.named i) old)
    (hd : docOf env pcfg.marker (.named i) (.alt c (.obj ps fs)) = .ok d)
    (hk : AllKeys cleanKey d) (ha : AllScalars sixAtom d) (hf : FitsIndent pcfg (nesting d)) :
    ∃ text k m rest, jsonExport env pcfg (.named i) (.alt c (.obj ps fs)) = .ok text ∧ JDoc rfcPair (.obj ((k, .scalar (.str m)) :: rest)) text ∧
      m.dec = name ∧ jsonImport env cfg true (.named i) old text = .ok (.alt c (.obj ps fs)) := by
  have hs := variant_storable hi hv hc hcd hs1 hs2
  obtain ⟨text, p, h1, h2, -⟩ := json_round_trip env pcfg cfg _ _ old d [] hg hm hx hd hs ho hk ha hf (.of trivial)
  rw [restored_val env pcfg.marker hg hnf _ _ old hs ho, List.append_nil] at h2
  obtain ⟨w, tv, ws, ss, hw, ht, -, -, e⟩ := export_doc env pcfg _ _ d hd hf
  rw [h1] at e
  cases e
  have hdoc : JDoc rfcPair (jtree streamText d) (w ++ tv) :=
    ⟨w, tv, [], hw, by simp [Ws], ptext_jtext rfcPair d tv hk (AllScalars.imp (fun _ h => finite_ok (six_ok h)) d ha) ht, by simp⟩
  simp only [docOf, hcd] at hd
  obtain ⟨own, -, hd⟩ := Res.bind_eq_ok.1 hd
  obtain ⟨up, -, hd⟩ := Res.bind_eq_ok.1 hd
  cases hd
  exact ⟨_, ⟨_, _⟩, ⟨_, _⟩, _, h1, hdoc, rfl, by rw [jsonImport, h2]; rfl⟩

/-- A variant holding an object of one of its alternatives. -/
def Held (env : Env) (marker : Bytes) (alts : List Nat) (v : Val) : Prop :=
  ∃ c ps fs dps ms f name field, v = .alt c (.obj ps fs) ∧ c ∈ alts ∧ env.defs c = .cls ⟨.mk dps ms f, name, field⟩ ∧
    StorableOwn env marker ms fs ∧ StorableParents env marker dps ps

private theorem held_list {env : Env} {mk : Bytes} {i : Nat} {alts : List Nat} (hi : env.defs i = .variant alts) (hv : Distinguished env mk alts) :
    ∀ vs, (∀ v ∈ vs, Held env mk alts v) → StorableList env mk (.named i) vs
  | [], _ => trivial
  | v :: vs, h => by
    rw [StorableList]
    obtain ⟨c, ps, fs, dps, ms, f, name, field, rfl, h1, h2, h3, h4⟩ := h v (by simp)
    exact ⟨variant_storable hi hv h1 h2 h3 h4, held_list hi hv vs fun w hw => h w (by simp [hw])⟩

/-- C124, BSON. A `std::vector` of variants, each with an alternative of its own. (`SizeKnown`: classes with
`ThorsAnvil_TypeFieldName`, whose sizes are right, C26. A variant at the top is not a BSON document.) -/
theorem C124_bson_partial (env : Env) (info : SizeInfo) (mk : Bytes) (cfg : Cfg) (i : Nat) (alts : List Nat) (vs : List Val) (old : Val) (d : Doc)
    (hg : GoodTypes env) (hnf : ∀ i c, env.defs i = .cls c → NoFilter c.traits) (hm : cfg.marker = mk) (hx : cfg.strict = .Exact → ExactTypes env)
    (hi : env.defs i = .variant alts) (hv : Distinguished env mk alts) (hh : ∀ v ∈ vs, Held env mk alts v) (ho : Fresh env (.vec (.named i)) old)
    (hd : docOf env mk (.vec (.named i)) (.list vs) = .ok d) (hz : SizeKnown env info false (.vec (.named i)) (.list vs))
    (hk : AllKeys (fun k => (0x00 : Byte) ∉ k) d) (ha : AllScalars plainAtom d) (hf : AllScalars doubleAtom d) (hl : (bdoc (btree d)).length < 2 ^ 31) :
    ∃ bytes, bsonExport env info mk (.vec (.named i)) (.list vs) = .ok bytes ∧
      bsonImport env cfg (.vec (.named i)) old bytes = .ok (.list vs) := by
  have hs : Storable env mk (.vec (.named i)) (.list vs) := by
    rw [Ty.vec, Storable]
    exact ⟨trivial, held_list hi hv vs hh⟩
  obtain ⟨bytes, p, h1, h2, -⟩ := C27_round_trip_partial env info mk cfg _ _ old d [] hg hnf hm hx hd hs ho hz (by simp [TopLevel]) hk ha hf hl
  rw [List.append_nil] at h2
  exact ⟨_, h1, by rw [bsonImport, h2]; rfl⟩

/-- C124, YAML. -/
theorem C124_yaml_partial (accepts : Bytes → Bool) (env : Env) (mk : Bytes) (cfg : Cfg) (i c : Nat) (alts : List Nat) (dps : List StructDef) (ms : List Member)
    (f : Option (Val → Bytes → Bool)) (name : Bytes) (field : Option Bytes) (ps fs : List Val) (old : Val) (d : Doc)
    (hg : GoodTypes env) (hnf : ∀ i c, env.defs i = .cls c → NoFilter c.traits) (hm : cfg.marker = mk) (hx : cfg.strict = .Exact → ExactTypes env)
    (hi : env.defs i = .variant alts) (hv : Distinguished env mk alts) (hc : c ∈ alts) (hcd : env.defs c = .cls ⟨.mk dps ms f, name, field⟩)
    (hs1 : StorableOwn env mk ms fs) (hs2 : StorableParents env mk dps ps) (ho : Fresh env (.named i) old)
    (hd : docOf env mk (.named i) (.alt c (.obj ps fs)) = .ok d)
    (hk : AllKeys (fun k => accepts k = true) d) (ha : AllScalars (fun a => accepts (yatom a) = true) d) (hy : AllScalars yamlScalar d) :
    ∃ es, yamlExport accepts env mk (.named i) (.alt c (.obj ps fs)) = .ok es ∧ yamlImport env cfg (.named i) old es = .ok (.alt c (.obj ps fs)) := by
  obtain ⟨es, h1, -, h2⟩ := C55_yaml_round_trip_partial accepts env mk cfg _ _ old d hg hnf hm hx hd (variant_storable hi hv hc hcd hs1 hs2) ho hk ha hy
  exact ⟨es, h1, h2⟩

/-- C124: a class name that none of the alternatives has is refused, whatever follows it. -/
theorem C124_unknown_refused (env : Env) (cfg : Cfg) (conv : Bool) (i : Nat) (alts : List Nat) (hi : env.defs i = .variant alts) (k s : JStr)
    (ms : List (JStr × JTree)) (t : Bytes) (ht : JDoc codePair (.obj ((k, .scalar (.str s)) :: ms)) t)
    (hn : ∀ a ∈ alts, ∀ d, env.defs a = .cls d → s.val conv ≠ d.serName) (old : Val) : jsonImport env cfg conv (.named i) old t = .throw .std := by
  have hp : ∀ (key : Bytes) (as : List Nat), (∀ a ∈ as, ∀ d, env.defs a = .cls d → s.val conv ≠ d.serName) → pickAlt env cfg key (s.val conv) as = none := by
    intro key as
    induction as with
    | nil => intro _; rfl
    | cons a as ih =>
      intro h
      rw [pickAlt]
      have := ih fun b hb => h b (by simp [hb])
      split
      · next d hd => rw [if_pos (.inr (h a (by simp) d hd))]; exact this
      · exact this
  have himp : imp (jsem conv) env cfg (.obj ((k, .scalar (.str s)) :: ms)) (.named i) old = .throw .std := by
    simp only [imp, imp.members, impObj, className, hi]
    by_cases hkey : (jsem conv).key k = polyMarker env cfg.marker (alts.headD 0)
    · rw [if_neg (by simp [hkey])]
      simp [jsem, hp _ _ hn, throwStd]
    · rw [if_pos hkey]; rfl
  rw [jsonImport_doc env cfg ht _ _ (.inr (by rw [himp]; intro h; cases h)), himp]

/-- C124 is false for alternatives whose type field name (`ThorsAnvil_TypeFieldName`) is not the one of the first alternative, unless a marker is
configured: the export uses the name of the class that is held, the import that of the first class. No such object comes back. -/
theorem C124_false (env : Env) (pcfg : PrintCfg) (cfg : Cfg) (i c : Nat) (alts : List Nat) (cd : ClassDef) (ps fs : List Val) (d : Doc)
    (hm : cfg.marker = pcfg.marker) (hi : env.defs i = .variant alts) (hne : polyMarker env pcfg.marker c ≠ polyMarker env pcfg.marker (alts.headD 0))
    (hc : env.defs c = .cls cd) (hd : docOf env pcfg.marker (.named i) (.alt c (.obj ps fs)) = .ok d)
    (hk : AllKeys cleanKey d) (ha : AllScalars sixAtom d) (hf : FitsIndent pcfg (nesting d)) :
    ∃ text, jsonExport env pcfg (.named i) (.alt c (.obj ps fs)) = .ok text ∧ ∀ old, jsonImport env cfg true (.named i) old text = .throw .std := by
  obtain ⟨w, tv, ws, ss, hws, ht, -, -, e⟩ := export_doc env pcfg _ _ d hd hf
  obtain ⟨⟨dps, ms, f⟩, name, field⟩ := cd
  simp only [docOf, hc] at hd
  obtain ⟨own, -, hd⟩ := Res.bind_eq_ok.1 hd
  obtain ⟨up, -, hd⟩ := Res.bind_eq_ok.1 hd
  cases hd
  refine ⟨_, e, fun old => ?_⟩
  have himp : imp (jsem true) env cfg (jtree streamText (.obj ((polyMarker env pcfg.marker c, .scalar (.str name)) :: (own ++ up)))) (.named i) old = .throw .std := by
    simp only [jtree, jtree.members, imp, imp.members, impObj, className, hm, hi]
    rw [if_pos (by simpa [jsem, JStr.val] using hne)]
    rfl
  have := jsonImport_post env cfg (conv := true) hws
    (ptext_jtext codePair _ tv hk (AllScalars.imp (fun _ h => finite_ok (six_ok h)) _ ha) ht) (post := []) (by trivial) (.named i) old (.inr (by rw [himp]; simp))
  rw [List.append_nil] at this
  rw [this, himp]

/-- C124 is false for two alternatives with the same class name (classes of that name in two namespaces, or a class that inherits the name of
its base class): whatever such a variant held, and whatever the document says, the second one never comes back. -/
theorem C124_same_name_false (env : Env) (cfg : Cfg) (conv : Bool) (i a b : Nat) (rest : List Nat) (ad bd : ClassDef) (hi : env.defs i = .variant (a :: b :: rest))
    (hab : a ≠ b) (hr : b ∉ rest) (ha : env.defs a = .cls ad) (hb : env.defs b = .cls bd) (hn : ad.serName = bd.serName)
    (hmk : polyMarker env cfg.marker a = polyMarker env cfg.marker b) (t : JTree) (text : Bytes) (ht : JDoc codePair t text)
    (hok : cfg.strict = .Weak → t.skippable (jsem conv) = true) (old v : Val) :
    jsonImport env cfg conv (.named i) old text ≠ .ok (.alt b v) := by
  have hp : ∀ key name c, pickAlt env cfg key name (a :: b :: rest) = some c → c ≠ b := by
    intro key name c h e
    subst e
    have hmem : ∀ as, pickAlt env cfg key name as = some c → c ∈ as := by
      intro as
      induction as with
      | nil => intro h; cases h
      | cons x as ih =>
        intro h
        rw [pickAlt] at h
        split at h
        · split at h
          · exact List.mem_cons_of_mem _ (ih h)
          · cases h; exact List.mem_cons_self
        · exact List.mem_cons_of_mem _ (ih h)
    rw [pickAlt, ha] at h
    simp only at h
    split at h
    · next h1 =>
      rw [pickAlt, hb] at h
      simp only at h
      rw [← hn, ← hmk, if_pos h1] at h
      exact hr (hmem _ h)
    · cases h; exact hab rfl
  rw [jsonImport_doc env cfg ht _ _ (.inl hok)]
  cases t with
  | scalar x => simp [imp, impScalar, hi, throwStd]
  | arr ts => simp [imp, impArr, hi, throwStd]
  | obj ms =>
    intro h
    simp only [imp, impObj, hi] at h
    obtain ⟨⟨name, ms'⟩, -, h⟩ := Res.bind_eq_ok.1 h
    simp only at h
    split at h
    · next c hc =>
      split at h
      · obtain ⟨w, -, h⟩ := Res.bind_eq_ok.1 h
        cases h
        exact hp _ _ _ hc rfl
      · cases h
    · cases h

/-- Sample program: `struct Car { int wheels; }` and `struct Boat { std::string name; }`, both with `ThorsAnvil_TypeFieldName(kind)`, `struct Sled { bool fast; }` with the
default type field, `toy::Car { bool red; }` with the field `kind`, and the variants `std::variant<Car, Boat>`, `std::variant<Car, Sled>`, `std::variant<Car, toy::Car>`. -/
def fleetEnv : Env := ⟨fun
    | 0 => .cls ⟨.mk [] [⟨b!"wheels", b!"wheels", Samples.int32⟩] none, b!"Car", some b!"kind"⟩
    | 1 => .cls ⟨.mk [] [⟨b!"name", b!"name", .str⟩] none, b!"Boat", some b!"kind"⟩
    | 2 => .cls ⟨.mk [] [⟨b!"fast", b!"fast", .bool⟩] none, b!"Sled", none⟩
    | 3 => .cls ⟨.mk [] [⟨b!"red", b!"red", .bool⟩] none, b!"Car", some b!"kind"⟩
    | 4 => .variant [0, 1]
    | 5 => .variant [0, 2]
    | 6 => .variant [0, 3]
    | _ => .enum [],
  fun | 0 => .obj [] [.int 0] | 1 => .obj [] [.str []] | 2 => .obj [] [.bool false] | 3 => .obj [] [.bool false]
      | 4 | 5 | 6 => .alt 0 (.obj [] [.int 0]) | _ => .enum 0,
  [], fun _ _ => false, fun _ _ _ => false⟩

theorem fleet_good : GoodTypes fleetEnv where
  names i c h := by
    match i with
    | 0 | 1 | 2 | 3 => simp only [fleetEnv, TypeDef.cls.injEq] at h; subst h; decide
    | 4 | 5 | 6 | _ + 7 => simp [fleetEnv] at h
  enums i t h := by
    match i with
    | 0 | 1 | 2 | 3 | 4 | 5 | 6 => simp [fleetEnv] at h
    | _ + 7 => simp only [fleetEnv, TypeDef.enum.injEq] at h; subst h; decide
  fresh i := by
    match i with
    | 0 | 1 | 2 | 3 | 4 | 5 | 6 | _ + 7 => simp [fleetEnv, Fresh, FreshOwn, FreshParents, Samples.int32]

theorem fleet_noFilter : ∀ i c, fleetEnv.defs i = .cls c → NoFilter c.traits := by
  intro i c h
  match i with
  | 0 | 1 | 2 | 3 => simp only [fleetEnv, TypeDef.cls.injEq] at h; subst h; simp [NoFilter, NoFilter.all]
  | 4 | 5 | 6 | _ + 7 => simp [fleetEnv] at h

theorem fleet_distinguished : Distinguished fleetEnv [] [0, 1] := by
  refine ⟨by decide, ?_⟩
  intro a ha b hb d e h1 h2 h3
  simp only [List.mem_cons, List.not_mem_nil, or_false] at ha hb
  rcases ha with rfl | rfl <;> rcases hb with rfl | rfl <;> first
    | rfl
    | (simp only [fleetEnv, TypeDef.cls.injEq] at h1 h2; subst h1 h2; exact absurd h3 (by decide))

def boat : Val := .alt 1 (.obj [] [.str b!"Otago"])
def boatDoc : Doc := .obj [(b!"kind", .scalar (.str b!"Boat")), (b!"name", .scalar (.str b!"Otago"))]
def carsDoc : Doc := .obj [(b!"kind", .scalar (.str b!"Car")), (b!"wheels", .scalar (.int ⟨32, true⟩ 3))]

theorem boat_doc : docOf fleetEnv [] (.named 4) boat = .ok boatDoc := by
  simp [boat, docOf, docOwn, docParents, fleetEnv, boatDoc, shown, polyMarker]

/-- non-vacuity: a boat in JSON and YAML, where a car was before; a list of a boat and a car in BSON. -/
example : (∃ text k m rest, jsonExport fleetEnv {} (.named 4) boat = .ok text ∧ JDoc rfcPair (.obj ((k, .scalar (.str m)) :: rest)) text ∧
      m.dec = b!"Boat" ∧ jsonImport fleetEnv ⟨.Exact, []⟩ true (.named 4) (.alt 0 (.obj [] [.int 0])) text = .ok boat) ∧
    (∃ es, yamlExport (fun _ => true) fleetEnv [] (.named 4) boat = .ok es ∧ yamlImport fleetEnv ⟨.Strict, []⟩ (.named 4) (.alt 0 (.obj [] [.int 0])) es = .ok boat) ∧
    ∃ bytes, bsonExport fleetEnv ⟨fun _ => false, fun _ => false⟩ [] (.vec (.named 4)) (.list [boat, .alt 0 (.obj [] [.int 3])]) = .ok bytes ∧
      bsonImport fleetEnv ⟨.Strict, []⟩ (.vec (.named 4)) (.list []) bytes = .ok (.list [boat, .alt 0 (.obj [] [.int 3])]) := by
  have hx : ExactTypes fleetEnv := by
    intro i c h
    refine ⟨fleet_noFilter i c h, ?_⟩
    match i with
    | 0 | 1 | 2 | 3 => simp only [fleetEnv, TypeDef.cls.injEq] at h; subst h; simp [allMembers, allMembers.inherited, Samples.int32]
    | 4 | 5 | 6 | _ + 7 => simp [fleetEnv] at h
  refine ⟨?_, ?_, ?_⟩
  · exact C124_json_partial fleetEnv {} ⟨.Exact, []⟩ 4 1 [0, 1] _ _ _ _ _ _ _ _ boatDoc fleet_good fleet_noFilter rfl (fun _ => hx) rfl fleet_distinguished (by simp) rfl
      (by simp [StorableOwn, Storable]) (by simp [StorableParents]) (fleet_good.fresh 4) boat_doc
      (by simp [boatDoc, AllKeys, AllKeys.members]; decide) (by simp [boatDoc, AllScalars, AllScalars.members, sixAtom])
      (fits_default [] false _ (by simp [boatDoc, nesting, nesting.members]))
  · exact C124_yaml_partial (fun _ => true) fleetEnv [] ⟨.Strict, []⟩ 4 1 [0, 1] _ _ _ _ _ _ _ _ boatDoc fleet_good fleet_noFilter rfl (by simp) rfl fleet_distinguished (by simp) rfl
      (by simp [StorableOwn, Storable]) (by simp [StorableParents]) (fleet_good.fresh 4) boat_doc
      (by simp [boatDoc, AllKeys, AllKeys.members]) (by simp [boatDoc, AllScalars, AllScalars.members]) (by simp [boatDoc, AllScalars, AllScalars.members, yamlScalar])
  · refine C124_bson_partial fleetEnv _ [] ⟨.Strict, []⟩ 4 [0, 1] _ _ (.arr [boatDoc, carsDoc]) fleet_good fleet_noFilter rfl (by simp) rfl fleet_distinguished ?_ ?_ ?_ ?_ ?_ ?_ ?_ ?_
    · intro v hv
      simp only [List.mem_cons, List.not_mem_nil, or_false] at hv
      rcases hv with rfl | rfl
      · exact ⟨1, _, _, _, _, _, _, _, rfl, by simp, rfl, by simp [StorableOwn, Storable], by simp [StorableParents]⟩
      · exact ⟨0, _, _, _, _, _, _, _, rfl, by simp, rfl, by simp [StorableOwn, Storable, Samples.int32]; decide, by simp [StorableParents]⟩
    · simp [Fresh, Ty.vec]
    · simp [boat, docOf, docList, docOwn, docParents, fleetEnv, boatDoc, carsDoc, shown, polyMarker, Ty.vec, Samples.int32]
    · simp [boat, SizeKnown, SizeKnownList, fleetEnv, SizeKnownOwn, SizeKnownParents, Samples.int32, Ty.vec]
    · simp [boatDoc, carsDoc, AllKeys, AllKeys.members, AllKeys.elems]
    · simp [boatDoc, carsDoc, AllScalars, AllScalars.members, AllScalars.elems, plainAtom]; decide
    · simp [boatDoc, carsDoc, AllScalars, AllScalars.members, AllScalars.elems, doubleAtom]
    · decide

/-- non-vacuity: a plane is refused. -/
example (old : Val) : jsonImport fleetEnv ⟨.Weak, []⟩ true (.named 4) old b!"{\"kind\":\"Plane\",\"wheels\":3}" = .throw .std :=
  C124_unknown_refused fleetEnv ⟨.Weak, []⟩ true 4 [0, 1] rfl (Samples.jstr b!"kind") (Samples.jstr b!"Plane") [(Samples.jstr b!"wheels", Samples.num 3)] _
    (Samples.plain_doc (.obj [(Samples.jstr b!"kind", .scalar (.str (Samples.jstr b!"Plane"))), (Samples.jstr b!"wheels", Samples.num 3)]) (by decide))
    (by
      intro a ha d hd
      simp only [List.mem_cons, List.not_mem_nil, or_false] at ha
      rcases ha with rfl | rfl <;> (simp only [fleetEnv, TypeDef.cls.injEq] at hd; subst hd; decide)) old

/-- non-vacuity: a sled does not come back, and a toy car never does. -/
example : (∃ text, jsonExport fleetEnv {} (.named 5) (.alt 2 (.obj [] [.bool true])) = .ok text ∧
      ∀ old, jsonImport fleetEnv ⟨.Weak, []⟩ true (.named 5) old text = .throw .std) ∧
    ∀ old v, jsonImport fleetEnv ⟨.Strict, []⟩ true (.named 6) old b!"{\"kind\":\"Car\",\"wheels\":3}" ≠ .ok (.alt 3 v) := by
  constructor
  · refine C124_false fleetEnv {} ⟨.Weak, []⟩ 5 2 [0, 2] _ _ _ (.obj [(b!"__type", .scalar (.str b!"Sled")), (b!"fast", .scalar (.bool true))]) rfl rfl (by decide) rfl
      (by simp [docOf, docOwn, docParents, fleetEnv, shown, polyMarker]) ?_ ?_ ?_
    · simp [AllKeys, AllKeys.members]; decide
    · simp [AllScalars, AllScalars.members, sixAtom]
    · exact fits_default [] false _ (by simp [nesting, nesting.members])
  · intro old v
    exact C124_same_name_false fleetEnv ⟨.Strict, []⟩ true 6 0 3 [] _ _ rfl (by decide) (by simp) rfl rfl rfl (by decide) _ _
      (Samples.plain_doc (.obj [(Samples.jstr b!"kind", .scalar (.str (Samples.jstr b!"Car"))), (Samples.jstr b!"wheels", Samples.num 3)]) (by decide)) (by decide) old v

end Thors.Props
