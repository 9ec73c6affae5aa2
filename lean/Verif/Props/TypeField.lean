import Verif.Props.RoundTrip
import Verif.Props.Bson
import Verif.Props.Yaml
import Verif.Proofs.Restored
import Verif.Proofs.BsonExport
/-
C123. Objects of a class that names its type field (`ThorsAnvil_TypeFieldName`), exported and imported by value.
-/
namespace Thors.Props
open Thors Spec StrIn BPrint

private theorem not_found {d : StructDef} {k : Bytes} (h : ∀ m ∈ allMembers d, m.out ≠ k) : d.find k = none := by
  cases hf : d.find k with
  | none => rfl
  | some s => obtain ⟨m, hm, e, -⟩ := find_out hf; exact absurd e (h m hm)

section
variable {K X : Type} (ek : Bytes → K) (ea : Atom → X) (sem : ScalarSem K X) (env : Env) (cfg : Cfg) (mk : Bytes) {okKey : Bytes → Prop} {okAtom : Atom → Prop}

/-- The type field stands first. -/
private theorem marked_doc {i : Nat} {c : ClassDef} {field : Bytes} {ps fs : List Val} {d : Doc} (hc : env.defs i = .cls c) (hf : c.typeField = some field)
    (hd : docOf env mk (.named i) (.obj ps fs) = .ok d) : ∃ ds, d = .obj ((polyMarker env mk i, .scalar (.str c.serName)) :: ds) := by
  obtain ⟨⟨dps, ms, f⟩, name, fo⟩ := c
  simp only at hf
  subst hf
  simp only [docOf, hc] at hd
  obtain ⟨own, -, hd⟩ := Res.bind_eq_ok.1 hd
  obtain ⟨up, -, hd⟩ := Res.bind_eq_ok.1 hd
  cases hd
  exact ⟨_, rfl⟩

private theorem imp_marked_refused (F : Faithful ek ea sem (fun _ => True) okAtom) {i : Nat} {c : ClassDef} {ds : List (Bytes × Doc)} {t : Doc} {key : Bytes}
    (hc : env.defs i = .cls c) (hs : cfg.strict ≠ .Weak) (hu : ∀ m ∈ allMembers c.traits, m.out ≠ key) (old : Val) :
    imp sem env cfg (enc ek ea (.obj ((key, t) :: ds))) (.named i) old = throwStd := by
  simp only [enc, enc.members, imp, imp.members, impObj, hc, impMembers, F.key _ trivial, not_found hu]
  rw [if_pos hs]

private theorem imp_marked_restored (F : Faithful ek ea sem (fun _ => True) okAtom) (hg : GoodTypes env) (hm : cfg.marker = mk) (hw : cfg.strict = .Weak)
    {i : Nat} {dps : List StructDef} {ms : List Member} {f : Option (Val → Bytes → Bool)} {name field : Bytes} {ps fs : List Val} {d : Doc} {old : Val}
    (hc : env.defs i = .cls ⟨.mk dps ms f, name, some field⟩) (hd : docOf env mk (.named i) (.obj ps fs) = .ok d)
    (hu : ∀ m ∈ allMembers (.mk dps ms f), m.out ≠ polyMarker env mk i) (hsk : sem.skips (ea (.str name)) = true)
    (hs1 : StorableOwn env mk ms fs) (hs2 : StorableParents env mk dps ps) (ho : Fresh env (.named i) old) (ha : AllScalars okAtom d) :
    imp sem env cfg (enc ek ea d) (.named i) old = .ok (restored env (.named i) old (.obj ps fs)) := by
  have hx : cfg.strict = .Exact → ExactTypes env := by rw [hw]; intro h; cases h
  simp only [docOf, hc] at hd
  obtain ⟨own, hown, hd⟩ := Res.bind_eq_ok.1 hd
  obtain ⟨up, hup, hd⟩ := Res.bind_eq_ok.1 hd
  cases hd
  obtain ⟨ops, ofs, rfl, hf1, hf2⟩ := fresh_cls env hc ho
  have hn := finds_self (hg.names i _ hc)
  have hk : ∀ ds : List (Bytes × Doc), AllKeys.members (fun _ => True) ds := fun ds => by
    have := allKeys_true (.obj ds); rwa [AllKeys] at this
  rw [AllScalars, allScalars_append, allScalars_append] at ha
  obtain ⟨found1, -, e1⟩ := rt_own ek ea sem env cfg mk F hg hm hx fs (.mk dps ms f) f (.obj ps fs) ms own hown hs1 ofs hf1 (hk _) ha.2.1 id [] .here ops []
    (fun j m hj => by simpa using hn.1 j m hj) (imp.members sem env cfg (enc.members ek ea up)) []
  obtain ⟨found2, -, e2⟩ := rt_parents ek ea sem env cfg mk F hg hm hx ps (.mk dps ms f) dps up hup hs2 ops hf2 (hk _) ha.2.2 id [] .here []
    (restoredOwn env f (.obj ps fs) ms ofs fs) hn.2 [] found1
  simp only [Option.isSome, if_true, List.singleton_append, List.cons_append, List.nil_append]
  simp only [enc, enc.members, imp, imp.members, impObj, hc, impMembers, F.key _ trivial, not_found hu]
  rw [if_neg (by simp [hw]), if_neg (by simp [Tr.skippable, hsk])]
  simp only [enc_members_append, members_eq, List.map_append] at e1 e2 ⊢
  simp only [id, List.nil_append, List.append_nil] at e1 e2
  rw [e1, e2, impMembers, if_neg (by simp [hw])]
  simp only [restored, hc]
end

private theorem restored_marked (env : Env) (mk : Bytes) (hg : GoodTypes env) (hnf : ∀ i c, env.defs i = .cls c → NoFilter c.traits)
    {i : Nat} {dps : List StructDef} {ms : List Member} {f : Option (Val → Bytes → Bool)} {name : Bytes} {field : Option Bytes} {ps fs : List Val} {old : Val}
    (hc : env.defs i = .cls ⟨.mk dps ms f, name, field⟩) (hs1 : StorableOwn env mk ms fs) (hs2 : StorableParents env mk dps ps) (ho : Fresh env (.named i) old) :
    restored env (.named i) old (.obj ps fs) = .obj ps fs := by
  obtain ⟨ops, ofs, rfl, hf1, hf2⟩ := fresh_cls env hc ho
  have := hnf i _ hc
  rw [NoFilter] at this
  obtain ⟨rfl, h2⟩ := this
  simp only [restored, hc]
  rw [restored_own env mk hg hnf fs ms ofs _ hs1 hf1, restored_parents env mk hg hnf ps dps ops h2 hs2 hf2]

/-- A name that is written as it stands and that the reader can skip: no quote, no backslash, no control character, no 0xFF. -/
def plainName (s : Bytes) : Prop := cleanKey s ∧ (0xFF : Byte) ∉ s

private theorem plain_skips {s : Bytes} (h : plainName s) : JStr.skips ⟨escapeString s, s⟩ = true := by
  simp only [JStr.skips, escape_clean h.1, Bool.and_eq_true, decide_eq_true_eq, Bool.not_eq_true', List.contains_eq_mem, decide_eq_false_iff_not]
  refine ⟨fun e => ?_, h.2⟩
  exact (h.1 _ (List.mem_of_getLast? e)).2.2 rfl

/-- C123, JSON, Weak mode: an object of a class that names its type field comes back, if no member has the name of the field. (The
members can be any values that come back, C23.) -/
theorem C123_json_weak_partial (env : Env) (pcfg : PrintCfg) (cfg : Cfg) (i : Nat) (dps : List StructDef) (ms : List Member) (f : Option (Val → Bytes → Bool))
    (name field : Bytes) (ps fs : List Val) (old : Val) (d : Doc) (hg : GoodTypes env) (hnf : ∀ i c, env.defs i = .cls c → NoFilter c.traits)
    (hm : cfg.marker = pcfg.marker) (hw : cfg.strict = .Weak) (hc : env.defs i = .cls ⟨.mk dps ms f, name, some field⟩)
    (hu : ∀ m ∈ allMembers (.mk dps ms f), m.out ≠ polyMarker env pcfg.marker i) (hn : plainName name)
    (hd : docOf env pcfg.marker (.named i) (.obj ps fs) = .ok d) (hs1 : StorableOwn env pcfg.marker ms fs) (hs2 : StorableParents env pcfg.marker dps ps)
    (ho : Fresh env (.named i) old) (hk : AllKeys cleanKey d) (ha : AllScalars sixAtom d) (hf : FitsIndent pcfg (nesting d)) :
    ∃ text, jsonExport env pcfg (.named i) (.obj ps fs) = .ok text ∧ jsonImport env cfg true (.named i) old text = .ok (.obj ps fs) := by
  obtain ⟨w, tv, ws, ss, hws, ht, -, -, e⟩ := export_doc env pcfg (.named i) _ d hd hf
  have hi : imp (jsem true) env cfg (jtree streamText d) (.named i) old = .ok (.obj ps fs) := by
    rw [jtree_enc, imp_marked_restored _ _ _ env cfg pcfg.marker jsonFaithful hg hm hw hc hd hu (plain_skips hn) hs1 hs2 ho ha,
      restored_marked env pcfg.marker hg hnf hc hs1 hs2 ho]
  obtain ⟨ds, rfl⟩ := marked_doc env pcfg.marker hc rfl hd
  refine ⟨_, e, ?_⟩
  have := jsonImport_post env cfg (conv := true) hws
    (ptext_jtext codePair _ tv hk (AllScalars.imp (fun _ h => finite_ok (six_ok h)) _ ha) ht) (post := []) (by trivial) (.named i) old (.inr (by rw [hi]; simp))
  rw [List.append_nil] at this
  rw [this, hi]

/-- C123, BSON, Weak mode. -/
theorem C123_bson_weak_partial (env : Env) (info : SizeInfo) (mk : Bytes) (cfg : Cfg) (i : Nat) (dps : List StructDef) (ms : List Member) (f : Option (Val → Bytes → Bool))
    (name field : Bytes) (ps fs : List Val) (old : Val) (d : Doc) (hg : GoodTypes env) (hnf : ∀ i c, env.defs i = .cls c → NoFilter c.traits)
    (hm : cfg.marker = mk) (hw : cfg.strict = .Weak) (hc : env.defs i = .cls ⟨.mk dps ms f, name, some field⟩)
    (hu : ∀ m ∈ allMembers (.mk dps ms f), m.out ≠ polyMarker env mk i)
    (hd : docOf env mk (.named i) (.obj ps fs) = .ok d) (hs1 : StorableOwn env mk ms fs) (hs2 : StorableParents env mk dps ps)
    (ho : Fresh env (.named i) old) (hz : SizeKnown env info false (.named i) (.obj ps fs))
    (hk : AllKeys (fun k => (0x00 : Byte) ∉ k) d) (ha : AllScalars plainAtom d) (hf : AllScalars doubleAtom d) (hl : (bdoc (btree d)).length < 2 ^ 31) :
    ∃ bytes, bsonExport env info mk (.named i) (.obj ps fs) = .ok bytes ∧ bsonImport env cfg (.named i) old bytes = .ok (.obj ps fs) := by
  have ht : TopLevel env (.named i) (.obj ps fs) := ⟨fun alts h => (by rw [hc] at h; exact TypeDef.noConfusion h), fun c w h => (by cases h)⟩
  refine ⟨_, bsonExport_doc env info mk _ _ d hd hz ha ht, ?_⟩
  have h1 := bsonImport_doc env cfg (btree d) ⟨bkeys d hk, bvalid d, hl⟩ [] (.named i) (base_root env mk _ _ d hd ht).1 old
  rw [List.append_nil] at h1
  rw [h1, btree_enc, imp_marked_restored _ _ _ env cfg mk bsonFaithful hg hm hw hc hd hu rfl hs1 hs2 ho (allScalars_and d ha hf),
    restored_marked env mk hg hnf hc hs1 hs2 ho]

/-- C123, YAML, Weak mode. -/
theorem C123_yaml_weak_partial (accepts : Bytes → Bool) (env : Env) (mk : Bytes) (cfg : Cfg) (i : Nat) (dps : List StructDef) (ms : List Member) (f : Option (Val → Bytes → Bool))
    (name field : Bytes) (ps fs : List Val) (old : Val) (d : Doc) (hg : GoodTypes env) (hnf : ∀ i c, env.defs i = .cls c → NoFilter c.traits)
    (hm : cfg.marker = mk) (hw : cfg.strict = .Weak) (hc : env.defs i = .cls ⟨.mk dps ms f, name, some field⟩)
    (hu : ∀ m ∈ allMembers (.mk dps ms f), m.out ≠ polyMarker env mk i)
    (hd : docOf env mk (.named i) (.obj ps fs) = .ok d) (hs1 : StorableOwn env mk ms fs) (hs2 : StorableParents env mk dps ps) (ho : Fresh env (.named i) old)
    (hk : AllKeys (fun k => accepts k = true) d) (ha : AllScalars (fun a => accepts (yatom a) = true) d) (hy : AllScalars yamlScalar d) :
    ∃ es, yamlExport accepts env mk (.named i) (.obj ps fs) = .ok es ∧ yamlImport env cfg (.named i) old es = .ok (.obj ps fs) := by
  have hy' : AllScalars yOk d := by
    have : yOk = yamlScalar := by funext a; cases a <;> rfl
    rw [this]; exact hy
  refine ⟨_, yaml_export_doc accepts env mk _ _ d hd hk ha, ?_⟩
  have := yamlImport_doc env cfg (ytree d) [.streamEnd] (.named i) old
  rw [ytree_enc, imp_marked_restored _ _ _ env cfg mk yamlFaithful hg hm hw hc hd hu rfl hs1 hs2 ho hy', restored_marked env mk hg hnf hc hs1 hs2 ho] at this
  unfold ydoc
  rw [ytree_enc]
  exact this

/-- C123 is false in the modes Strict and Exact: no object of such a class comes back, whatever its members are. The export has the type
field, which is not a member, so the import throws. JSON. -/
theorem C123_json_false (env : Env) (pcfg : PrintCfg) (cfg : Cfg) (i : Nat) (c : ClassDef) (field : Bytes) (ps fs : List Val) (d : Doc)
    (hs : cfg.strict ≠ .Weak) (hc : env.defs i = .cls c) (hfield : c.typeField = some field) (hu : ∀ m ∈ allMembers c.traits, m.out ≠ polyMarker env pcfg.marker i)
    (hd : docOf env pcfg.marker (.named i) (.obj ps fs) = .ok d) (hk : AllKeys cleanKey d) (ha : AllScalars sixAtom d) (hf : FitsIndent pcfg (nesting d)) :
    ∃ text, jsonExport env pcfg (.named i) (.obj ps fs) = .ok text ∧ ∀ old, jsonImport env cfg true (.named i) old text = .throw .std := by
  obtain ⟨w, tv, ws, ss, hws, ht, -, -, e⟩ := export_doc env pcfg (.named i) _ d hd hf
  obtain ⟨ds, rfl⟩ := marked_doc env pcfg.marker hc hfield hd
  refine ⟨_, e, fun old => ?_⟩
  have hi : imp (jsem true) env cfg (jtree streamText (.obj ((polyMarker env pcfg.marker i, .scalar (.str c.serName)) :: ds))) (.named i) old = throwStd := by
    rw [jtree_enc]
    exact imp_marked_refused _ _ _ env cfg jsonFaithful hc hs hu old
  have := jsonImport_post env cfg (conv := true) hws
    (ptext_jtext codePair _ tv hk (AllScalars.imp (fun _ h => finite_ok (six_ok h)) _ ha) ht) (post := []) (by trivial) (.named i) old (.inr (by rw [hi]; simp [throwStd]))
  rw [List.append_nil] at this
  rw [this, hi]

/-- C123 is false in the modes Strict and Exact. BSON. -/
theorem C123_bson_false (env : Env) (info : SizeInfo) (mk : Bytes) (cfg : Cfg) (i : Nat) (c : ClassDef) (field : Bytes) (ps fs : List Val) (d : Doc)
    (hs : cfg.strict ≠ .Weak) (hc : env.defs i = .cls c) (hfield : c.typeField = some field) (hu : ∀ m ∈ allMembers c.traits, m.out ≠ polyMarker env mk i)
    (hd : docOf env mk (.named i) (.obj ps fs) = .ok d) (hz : SizeKnown env info false (.named i) (.obj ps fs))
    (hk : AllKeys (fun k => (0x00 : Byte) ∉ k) d) (ha : AllScalars plainAtom d) (hl : (bdoc (btree d)).length < 2 ^ 31) :
    ∃ bytes, bsonExport env info mk (.named i) (.obj ps fs) = .ok bytes ∧ ∀ old, bsonImport env cfg (.named i) old bytes = .throw .std := by
  have ht : TopLevel env (.named i) (.obj ps fs) := ⟨fun alts h => (by rw [hc] at h; exact TypeDef.noConfusion h), fun c w h => (by cases h)⟩
  refine ⟨_, bsonExport_doc env info mk _ _ d hd hz ha ht, fun old => ?_⟩
  have h1 := bsonImport_doc env cfg (btree d) ⟨bkeys d hk, bvalid d, hl⟩ [] (.named i) (base_root env mk _ _ d hd ht).1 old
  rw [List.append_nil] at h1
  obtain ⟨ds, rfl⟩ := marked_doc env mk hc hfield hd
  rw [h1, btree_enc]
  exact imp_marked_refused _ _ _ env cfg bsonFaithful hc hs hu old

/-- C123 is false in the modes Strict and Exact. YAML. -/
theorem C123_yaml_false (accepts : Bytes → Bool) (env : Env) (mk : Bytes) (cfg : Cfg) (i : Nat) (c : ClassDef) (field : Bytes) (ps fs : List Val) (d : Doc)
    (hs : cfg.strict ≠ .Weak) (hc : env.defs i = .cls c) (hfield : c.typeField = some field) (hu : ∀ m ∈ allMembers c.traits, m.out ≠ polyMarker env mk i)
    (hd : docOf env mk (.named i) (.obj ps fs) = .ok d) (hk : AllKeys (fun k => accepts k = true) d) (ha : AllScalars (fun a => accepts (yatom a) = true) d) :
    ∃ es, yamlExport accepts env mk (.named i) (.obj ps fs) = .ok es ∧ ∀ old, yamlImport env cfg (.named i) old es = .throw .std := by
  refine ⟨_, yaml_export_doc accepts env mk _ _ d hd hk ha, fun old => ?_⟩
  have := yamlImport_doc env cfg (ytree d) [.streamEnd] (.named i) old
  obtain ⟨ds, rfl⟩ := marked_doc env mk hc hfield hd
  rw [ytree_enc, imp_marked_refused _ _ _ env cfg yamlFaithful hc hs hu old] at this
  unfold ydoc
  rw [ytree_enc]
  exact this

/-- Sample program: `struct Car { int wheels; std::string name; ThorsAnvil_VariantSerializer(Car); ThorsAnvil_TypeFieldName(kind); }`. -/
def carEnv : Env := ⟨fun i => if i = 0 then .cls ⟨.mk [] [⟨b!"wheels", b!"wheels", Samples.int32⟩, ⟨b!"name", b!"name", .str⟩] none, b!"Car", some b!"kind"⟩ else .enum [],
  fun i => if i = 0 then .obj [] [.int 0, .str []] else .enum 0, [], fun _ _ => false, fun _ _ _ => false⟩

theorem carEnv_good : GoodTypes carEnv where
  names i c h := by
    by_cases h0 : i = 0
    · subst h0; simp only [carEnv, if_true, TypeDef.cls.injEq] at h; subst h; decide
    · simp [carEnv, h0] at h
  enums i t h := by
    by_cases h0 : i = 0
    · subst h0; simp [carEnv] at h
    · simp only [carEnv, h0, if_false, TypeDef.enum.injEq] at h; subst h; decide
  fresh i := by
    by_cases h0 : i = 0
    · subst h0; simp [carEnv, Fresh, FreshOwn, FreshParents, Samples.int32]
    · simp [carEnv, h0, Fresh]

theorem carEnv_noFilter : ∀ i c, carEnv.defs i = .cls c → NoFilter c.traits := by
  intro i c h
  by_cases h0 : i = 0
  · subst h0; simp only [carEnv, if_true, TypeDef.cls.injEq] at h; subst h; simp [NoFilter, NoFilter.all]
  · simp [carEnv, h0] at h

def carDoc : Doc := .obj [(b!"kind", .scalar (.str b!"Car")), (b!"wheels", .scalar (.int ⟨32, true⟩ 4)), (b!"name", .scalar (.str b!"Herbie"))]

theorem car_doc : docOf carEnv [] (.named 0) (.obj [] [.int 4, .str b!"Herbie"]) = .ok carDoc := by
  simp [docOf, docOwn, docParents, carEnv, carDoc, Samples.int32, shown, polyMarker]

/-- non-vacuity, JSON: `{"kind":"Car","wheels":4,"name":"Herbie"}` comes back in Weak mode and is refused in Strict mode. -/
example : (∃ text, jsonExport carEnv {} (.named 0) (.obj [] [.int 4, .str b!"Herbie"]) = .ok text ∧
      jsonImport carEnv ⟨.Weak, []⟩ true (.named 0) (carEnv.dflt 0) text = .ok (.obj [] [.int 4, .str b!"Herbie"])) ∧
    ∃ text, jsonExport carEnv {} (.named 0) (.obj [] [.int 4, .str b!"Herbie"]) = .ok text ∧
      ∀ old, jsonImport carEnv ⟨.Strict, []⟩ true (.named 0) old text = .throw .std := by
  have hk : AllKeys cleanKey carDoc := by simp [carDoc, AllKeys, AllKeys.members]; decide
  have ha : AllScalars sixAtom carDoc := by simp [carDoc, AllScalars, AllScalars.members, sixAtom]
  have hf : FitsIndent {} (nesting carDoc) :=
    .inr (by intro k hk; simp only [indentation]; simp; simp [carDoc, nesting, nesting.members] at hk; omega)
  exact ⟨C123_json_weak_partial carEnv {} ⟨.Weak, []⟩ 0 _ _ _ _ _ _ _ (carEnv.dflt 0) carDoc carEnv_good carEnv_noFilter rfl rfl rfl (by decide) (by constructor <;> decide)
      car_doc (by simp [StorableOwn, Storable, Samples.int32]; decide) (by simp [StorableParents]) (carEnv_good.fresh 0) hk ha hf,
    C123_json_false carEnv {} ⟨.Strict, []⟩ 0 _ b!"kind" _ _ carDoc (by decide) rfl rfl (by decide) car_doc hk ha hf⟩

/-- non-vacuity, BSON. -/
example : (∃ bytes, bsonExport carEnv ⟨fun _ => false, fun _ => false⟩ [] (.named 0) (.obj [] [.int 4, .str b!"Herbie"]) = .ok bytes ∧
      bsonImport carEnv ⟨.Weak, []⟩ (.named 0) (carEnv.dflt 0) bytes = .ok (.obj [] [.int 4, .str b!"Herbie"])) ∧
    ∃ bytes, bsonExport carEnv ⟨fun _ => false, fun _ => false⟩ [] (.named 0) (.obj [] [.int 4, .str b!"Herbie"]) = .ok bytes ∧
      ∀ old, bsonImport carEnv ⟨.Exact, []⟩ (.named 0) old bytes = .throw .std := by
  have hk : AllKeys (fun k => (0x00 : Byte) ∉ k) carDoc := by simp [carDoc, AllKeys, AllKeys.members]
  have ha : AllScalars plainAtom carDoc := by simp [carDoc, AllScalars, AllScalars.members, plainAtom]; decide
  have hz : SizeKnown carEnv ⟨fun _ => false, fun _ => false⟩ false (.named 0) (.obj [] [.int 4, .str b!"Herbie"]) := by
    simp [SizeKnown, carEnv, SizeKnownOwn, SizeKnownParents, Samples.int32]
  exact ⟨C123_bson_weak_partial carEnv _ [] ⟨.Weak, []⟩ 0 _ _ _ _ _ _ _ (carEnv.dflt 0) carDoc carEnv_good carEnv_noFilter rfl rfl rfl (by decide)
      car_doc (by simp [StorableOwn, Storable, Samples.int32]; decide) (by simp [StorableParents]) (carEnv_good.fresh 0) hz hk ha
      (by simp [carDoc, AllScalars, AllScalars.members, doubleAtom]) (by decide),
    C123_bson_false carEnv _ [] ⟨.Exact, []⟩ 0 _ b!"kind" _ _ carDoc (by decide) rfl rfl (by decide) car_doc hz hk ha (by decide)⟩

/-- non-vacuity, YAML. -/
example : (∃ es, yamlExport (fun _ => true) carEnv [] (.named 0) (.obj [] [.int 4, .str b!"Herbie"]) = .ok es ∧
      yamlImport carEnv ⟨.Weak, []⟩ (.named 0) (carEnv.dflt 0) es = .ok (.obj [] [.int 4, .str b!"Herbie"])) ∧
    ∃ es, yamlExport (fun _ => true) carEnv [] (.named 0) (.obj [] [.int 4, .str b!"Herbie"]) = .ok es ∧
      ∀ old, yamlImport carEnv ⟨.Strict, []⟩ (.named 0) old es = .throw .std := by
  have hk : AllKeys (fun _ => (true : Bool) = true) carDoc := by simp [carDoc, AllKeys, AllKeys.members]
  have ha : AllScalars (fun _ => (true : Bool) = true) carDoc := by simp [carDoc, AllScalars, AllScalars.members]
  exact ⟨C123_yaml_weak_partial (fun _ => true) carEnv [] ⟨.Weak, []⟩ 0 _ _ _ _ _ _ _ (carEnv.dflt 0) carDoc carEnv_good carEnv_noFilter rfl rfl rfl (by decide)
      car_doc (by simp [StorableOwn, Storable, Samples.int32]; decide) (by simp [StorableParents]) (carEnv_good.fresh 0) hk ha
      (by simp [carDoc, AllScalars, AllScalars.members, yamlScalar]),
    C123_yaml_false (fun _ => true) carEnv [] ⟨.Strict, []⟩ 0 _ b!"kind" _ _ carDoc (by decide) rfl rfl (by decide) car_doc hk ha⟩

end Thors.Props
