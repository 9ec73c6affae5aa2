import Verif.Props.RoundTrip
import Verif.Props.Variant
import Verif.Props.Bson
import Verif.Props.Stream
import Verif.Proofs.YamlPresents
/-
Names that are not known, in every format: of enumerators (C34), of classes (C36) and of alternatives of a variant (C124).
-/
namespace Thors.Props
open Thors Spec StrIn

section
variable {K X : Type} (sem : ScalarSem K X) (env : Env) (cfg : Cfg)

private theorem enum_foreign {table : List (Int × Bytes)} {i : Nat} (hd : env.defs i = .enum table) {x : X} {s : Bytes} (hx : sem.readStr x = .ok s) (hs : s ∉ table.map Prod.snd)
    (old : Val) : imp sem env cfg (.scalar x) (.named i) old = .throw .std := by
  have hnone : enumOf table s = none := by
    simp only [enumOf, Option.map_eq_none_iff, List.find?_eq_none]
    intro x hx h
    exact hs (List.mem_map.2 ⟨x, hx, by simpa using h⟩)
  simp [imp, impScalar, hd, hx, hnone, throwStd]

private theorem class_unknown {b : Nat} {bd : ClassDef} (hb : env.defs b = .cls bd) {k : K} {x : X} {s : Bytes} (ms : List (K × Tr K X))
    (hk : sem.key k = markerOf cfg.marker bd.typeField) (hx : sem.readStr x = .ok s) (hr : env.registry.lookup s = none) (old : Val) :
    imp sem env cfg (.obj ((k, .scalar x) :: ms)) (.pptr b) old = .throw .std := by
  simp only [imp, imp.members, impObj, className]
  rw [if_neg (by simp [hk, markerOf_eq hb])]
  simp [hx, hr, throwStd]

private theorem no_alternative {s : Bytes} (key : Bytes) : ∀ as : List Nat, (∀ a ∈ as, ∀ d, env.defs a = .cls d → s ≠ d.serName) → pickAlt env cfg key s as = none
  | [], _ => rfl
  | a :: as, h => by
    rw [pickAlt]
    have := no_alternative key as fun b hb => h b (by simp [hb])
    split
    · next d hd => rw [if_pos (.inr (h a (by simp) d hd))]; exact this
    · exact this

private theorem variant_unknown {i : Nat} {alts : List Nat} (hi : env.defs i = .variant alts) {k : K} {x : X} {s : Bytes} (ms : List (K × Tr K X)) (hx : sem.readStr x = .ok s)
    (hn : ∀ a ∈ alts, ∀ d, env.defs a = .cls d → s ≠ d.serName) (old : Val) : imp sem env cfg (.obj ((k, .scalar x) :: ms)) (.named i) old = .throw .std := by
  simp only [imp, imp.members, impObj, className, hi]
  by_cases hkey : sem.key k = polyMarker env cfg.marker (alts.headD 0)
  · rw [if_neg (by simp [hkey])]
    simp [hx, no_alternative env cfg _ _ hn, throwStd]
  · rw [if_pos hkey]; rfl
end

/-! ### C34 -/

/-- C34 for YAML: a scalar that is no name of the enumeration is rejected. -/
theorem C34_yaml_foreign_name_rejected (env : Env) (cfg : Cfg) (i : Nat) (table : List (Int × Bytes)) (hd : env.defs i = .enum table) (s : Bytes) (hs : s ∉ table.map Prod.snd)
    (old : Val) (rest : List YEv) : yamlImport env cfg (.named i) old ([.streamStart, .docStart] ++ yevents (.scalar s) ++ .docEnd :: rest) = .throw .std := by
  rw [yamlImport_doc]
  exact enum_foreign ysem env cfg hd rfl hs old

/-- C34 for JSON in a stream. -/
theorem C34_stream_foreign_name_rejected (env : Env) (cfg : Cfg) (conv : Bool) (i : Nat) (table : List (Int × Bytes)) (hd : env.defs i = .enum table) (s : JStr)
    (hs : s.val conv ∉ table.map Prod.snd) (w tv post : Bytes) (hw : Ws w) (hv : JText codePair (.scalar (.str s)) tv) (j : IStr) (hj : Ready j (w ++ tv ++ post))
    (hk : cfg.strict = .Weak → s.streamSkips = true) (old : Val) : ∀ r, jsonStreamImport env cfg conv (.named i) old j ≠ .ok r := by
  rintro ⟨r, j'⟩ e
  have := imp_of_streamImport env cfg hw hv (post := post) trivial hj.oks _ old r hk e
  rw [enum_foreign (jssem conv) env cfg hd rfl hs old] at this
  cases this

/-! ### C36 -/

/-- C36 for YAML: an unregistered class name is rejected, whatever follows it. -/
theorem C36_yaml_unknown_class_rejected (env : Env) (cfg : Cfg) (b : Nat) (bd : ClassDef) (hb : env.defs b = .cls bd) (k s : Bytes) (ms : List (Bytes × YTree)) (rest : List YEv)
    (hk : k = markerOf cfg.marker bd.typeField) (hr : env.registry.lookup s = none) (old : Val) :
    yamlImport env cfg (.pptr b) old ([.streamStart, .docStart] ++ yevents (.obj ((k, .scalar s) :: ms)) ++ .docEnd :: rest) = .throw .std := by
  rw [yamlImport_doc]
  exact class_unknown ysem env cfg hb ms hk rfl hr old

/-- C36 for BSON. -/
theorem C36_bson_unknown_class_rejected (env : Env) (cfg : Cfg) (b : Nat) (bd : ClassDef) (hb : env.defs b = .cls bd) (k s : Bytes) (ms : List (Bytes × BTree)) (rest : Bytes)
    (hd : Storable32 (.obj ((k, .scalar (.str s)) :: ms))) (hk : k = markerOf cfg.marker bd.typeField) (hr : env.registry.lookup s = none) (old : Val) :
    bsonImport env cfg (.pptr b) old (bdoc (.obj ((k, .scalar (.str s)) :: ms)) ++ rest) = .throw .std := by
  rw [bsonImport_doc env cfg _ hd rest _ rfl]
  exact class_unknown bsem env cfg hb ms hk rfl hr old

/-- C36 for JSON in a stream. -/
theorem C36_stream_unknown_class_rejected (env : Env) (cfg : Cfg) (conv : Bool) (b : Nat) (bd : ClassDef) (hb : env.defs b = .cls bd) (k s : JStr) (ms : List (JStr × JTree))
    (w tv post : Bytes) (hw : Ws w) (hv : JText codePair (.obj ((k, .scalar (.str s)) :: ms)) tv) (j : IStr) (hj : Ready j (w ++ tv ++ post))
    (hskip : cfg.strict = .Weak → (Tr.obj ((k, .scalar (.str s)) :: ms) : JTree).skippable (jssem conv) = true)
    (hk : k.val conv = markerOf cfg.marker bd.typeField) (hr : env.registry.lookup (s.val conv) = none) (old : Val) : ∀ r, jsonStreamImport env cfg conv (.pptr b) old j ≠ .ok r := by
  rintro ⟨r, j'⟩ e
  have := imp_of_streamImport env cfg hw hv (post := post) trivial hj.oks _ old r hskip e
  rw [class_unknown (jssem conv) env cfg hb ms hk rfl hr old] at this
  cases this

/-! ### C124 -/

/-- C124 for YAML: a name that no alternative has is rejected. -/
theorem C124_yaml_unknown_refused (env : Env) (cfg : Cfg) (i : Nat) (alts : List Nat) (hi : env.defs i = .variant alts) (k s : Bytes) (ms : List (Bytes × YTree)) (rest : List YEv)
    (hn : ∀ a ∈ alts, ∀ d, env.defs a = .cls d → s ≠ d.serName) (old : Val) :
    yamlImport env cfg (.named i) old ([.streamStart, .docStart] ++ yevents (.obj ((k, .scalar s) :: ms)) ++ .docEnd :: rest) = .throw .std := by
  rw [yamlImport_doc]
  exact variant_unknown ysem env cfg hi ms rfl hn old

/-! ### Non-vacuity -/

/-- `Blue` is not a `Colour`. -/
example : yamlImport rtEnv ⟨.Strict, []⟩ (.named 2) (.enum 0) ([.streamStart, .docStart] ++ yevents (.scalar b!"Blue") ++ .docEnd :: []) = .throw .std :=
  C34_yaml_foreign_name_rejected rtEnv _ 2 _ rfl b!"Blue" (by decide) _ []
example (r : Val × IStr) : jsonStreamImport rtEnv ⟨.Strict, []⟩ true (.named 2) (.enum 0) (IStr.ofBytes b!"\"Blue\"") ≠ .ok r :=
  C34_stream_foreign_name_rejected rtEnv _ true 2 _ rfl (Samples.jstr b!"Blue") (by decide) [] _ [] Samples.ws_nil
    (Samples.plain_text (.scalar (.str (Samples.jstr b!"Blue"))) (by decide)) _ ⟨⟨rfl, rfl⟩, rfl, Nat.zero_le _, rfl⟩ (fun h => by cases h) _ r
/-- `Edge` is not a class. -/
private theorem edge_stored : Storable32 (.obj [(b!"__type", .scalar (.str b!"Edge")), (b!"id", .scalar (.int32 3))]) :=
  ⟨⟨by decide, trivial, by decide, trivial, trivial⟩, ⟨show BScalar.valid (.str b!"Edge") from by simp [BScalar.valid], show BScalar.valid (.int32 3) from by simp [BScalar.valid], trivial⟩,
    by decide +kernel⟩
example : yamlImport rtEnv ⟨.Weak, []⟩ (.pptr 0) .null ([.streamStart, .docStart] ++ yevents (.obj [(b!"__type", .scalar b!"Edge"), (b!"id", .scalar b!"3")]) ++ .docEnd :: []) = .throw .std :=
  C36_yaml_unknown_class_rejected rtEnv ⟨.Weak, []⟩ 0 _ rfl b!"__type" b!"Edge" _ [] rfl rfl _
example : bsonImport rtEnv ⟨.Weak, []⟩ (.pptr 0) .null (bdoc (.obj [(b!"__type", .scalar (.str b!"Edge")), (b!"id", .scalar (.int32 3))]) ++ []) = .throw .std :=
  C36_bson_unknown_class_rejected rtEnv ⟨.Weak, []⟩ 0 _ rfl b!"__type" b!"Edge" _ [] edge_stored rfl rfl _
example (r : Val × IStr) : jsonStreamImport rtEnv ⟨.Weak, []⟩ true (.pptr 0) .null (IStr.ofBytes b!"{\"__type\":\"Edge\",\"id\":3}") ≠ .ok r :=
  C36_stream_unknown_class_rejected rtEnv ⟨.Weak, []⟩ true 0 _ rfl (Samples.jstr b!"__type") (Samples.jstr b!"Edge") [(Samples.jstr b!"id", Samples.num 3)] [] _ [] Samples.ws_nil
    (Samples.plain_text (.obj [(Samples.jstr b!"__type", .scalar (.str (Samples.jstr b!"Edge"))), (Samples.jstr b!"id", Samples.num 3)]) (by decide)) _
    ⟨⟨rfl, rfl⟩, rfl, Nat.zero_le _, rfl⟩ (fun _ => by decide) rfl rfl _ r
/-- A `Sled` is not an alternative of the variant of cars and boats. -/
private theorem not_sled : ∀ a ∈ [0, 1], ∀ d, fleetEnv.defs a = .cls d → b!"Sled" ≠ d.serName := by
  intro a ha d hd
  simp only [List.mem_cons, List.not_mem_nil, or_false] at ha
  rcases ha with rfl | rfl <;> cases hd <;> decide
example : yamlImport fleetEnv ⟨.Weak, []⟩ (.named 4) (fleetEnv.dflt 4) ([.streamStart, .docStart] ++ yevents (.obj [(b!"kind", .scalar b!"Sled")]) ++ .docEnd :: []) = .throw .std :=
  C124_yaml_unknown_refused fleetEnv ⟨.Weak, []⟩ 4 [0, 1] rfl b!"kind" b!"Sled" [] [] not_sled _

end Thors.Props
