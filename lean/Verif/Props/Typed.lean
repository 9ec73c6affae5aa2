import Verif.Proofs.TypedOps
import Verif.Proofs.JsonImport
import Verif.Props.Ends
import Verif.Props.Import
import Verif.Props.RoundTrip
/-
C94: what an import delivers is a value of the type.
-/
namespace Thors.Props
open Thors Thors.Spec StrIn

/-- C94. JSON from a string: whatever the text, if the object was filled it is a value of its type. -/
theorem C94_json_partial (env : Env) (D : DefaultsTyped env) (cfg : Cfg) (pol : Policy) (conv : Bool) (ty : Ty) (old : Val) (ho : HasType env ty old) (t : Bytes)
    (r : Bool) (v : Val) (h : (jsonExtract env cfg pol conv ty old t).fate = .returned r (some v)) : HasType env ty v :=
  extract_typed (io := JsonP.inOps) json_ranged D cfg pol ty old _ ho h

/-- C94. JSON from a stream. -/
theorem C94_json_stream_partial (env : Env) (D : DefaultsTyped env) (cfg : Cfg) (pol : Policy) (conv : Bool) (ty : Ty) (old : Val) (ho : HasType env ty old) (i : IStr)
    (r : Bool) (v : Val) (h : (jsonStreamExtract env cfg pol conv ty old i).fate = .returned r (some v)) : HasType env ty v :=
  extract_typed (io := JsonS.inOps) stream_ranged D cfg pol ty old _ ho h

/-- C94. BSON from a string. -/
theorem C94_bson_partial (env : Env) (D : DefaultsTyped env) (cfg : Cfg) (ty : Ty) (old : Val) (ho : HasType env ty old) (t : Bytes) (v : Val)
    (h : bsonImport env cfg ty old t = .ok v) : HasType env ty v := by
  unfold bsonImport at h
  obtain ⟨⟨w, p⟩, h1, h2⟩ := Res.bind_ok h
  cases h2
  exact import_typed bson_ranged D cfg ty old _ ho _ h1

/-- C94. BSON from a stream. -/
theorem C94_bson_stream_partial (env : Env) (D : DefaultsTyped env) (cfg : Cfg) (ty : Ty) (old : Val) (ho : HasType env ty old) (i i' : IStr) (v : Val)
    (h : bsonStreamImport env cfg ty old i = .ok (v, i')) : HasType env ty v := by
  unfold bsonStreamImport at h
  obtain ⟨⟨w, p⟩, h1, h2⟩ := Res.bind_ok h
  cases h2
  exact import_typed bsonS_ranged D cfg ty old _ ho _ h1

/-- C94. YAML, whatever events libyaml produces. -/
theorem C94_yaml_partial (env : Env) (D : DefaultsTyped env) (cfg : Cfg) (ty : Ty) (old : Val) (ho : HasType env ty old) (es : List YEv) (v : Val)
    (h : yamlImport env cfg ty old es = .ok v) : HasType env ty v := by
  unfold yamlImport at h
  obtain ⟨⟨w, p⟩, h1, h2⟩ := Res.bind_ok h
  cases h2
  exact import_typed yaml_ranged D cfg ty old _ ho _ h1

/-- C94, with C83: for types without fixed size containers, vectors of pointers and classes registered under a foreign base, no text
leads to undefined behaviour, and what is stored is a value of the type. For numbers out of range any values of their type may be found
(C09). -/
theorem C94_any_text_partial (j : Indet) (hj : j.Ranged) (env : Env) (hT : SoundTypes env true false) (D : DefaultsTyped env) (cfg : Cfg) (pol : Policy) (conv : Bool)
    (ty : Ty) (hS : Sound env true false ty) (old : Val) (hO : Shaped env ty old) (ho : HasType env ty old) (t : Bytes) :
    (jsonExtractJ j env cfg pol conv ty old t).fate ≠ .ub ∧
    ∀ r v, (jsonExtractJ j env cfg pol conv ty old t).fate = .returned r (some v) → HasType env ty v :=
  ⟨C83_ends_partial j env hT cfg pol conv ty old t hS hO, fun _ _ h =>
    extract_typed (io := { JsonP.inOps with ops := opsJ j }) (json_ranged_indet j hj) D cfg pol ty old _ ho h⟩

/-- What C94 asks of a document that names a class: if the class is not the class of the pointer or derived from it, the document is refused. -/
def C94_claim (env : Env) (cfg : Cfg) (conv : Bool) (b : Nat) (s : JStr) (ms : List (JStr × JTree)) (k : JStr) : Prop :=
  ∀ c t, env.registry.lookup (s.val conv) = some c → env.derives c b = false → JDoc codePair (.obj ((k, .scalar (.str s)) :: ms)) t →
    ∃ e, jsonImport env cfg conv (.pptr b) .null t = .throw e

/-- A document that names a class that was registered, but for another base class, is not refused: an object of that class is created and
used as if it were of the class of the pointer. -/
theorem C94_foreign_class (env : Env) (cfg : Cfg) (conv : Bool) (b c : Nat) (bd : ClassDef) (hb : env.defs b = .cls bd) (k s : JStr) (ms : List (JStr × JTree)) (t : Bytes)
    (hs : cfg.strict = .Weak → (Tr.obj ((k, .scalar (.str s)) :: ms)).skippable (jsem conv) = true)
    (ht : JDoc codePair (.obj ((k, .scalar (.str s)) :: ms)) t) (hk : k.val conv = markerOf cfg.marker bd.typeField)
    (hr : env.registry.lookup (s.val conv) = some c) (hd : env.derives c b = false) (old : Val) : jsonImport env cfg conv (.pptr b) old t = .ub := by
  have himp : imp (jsem conv) env cfg (.obj ((k, .scalar (.str s)) :: ms)) (.pptr b) old = .ub := by
    simp only [imp, imp.members, impObj, className]
    rw [if_neg (by simp [jsem, hk, markerOf_eq hb])]
    simp [jsem, hr, hd]
  rw [jsonImport_doc env cfg ht _ _ (.inl hs), himp]

/-- The classes of the examples: `struct Vehicle { int speed; }` (0), `struct Car : Vehicle { std::string plate; Colour colour; }` (1),
`struct Bike : Vehicle { std::array<int, 2> gears; }` (2), all polymorphic and registered; `enum Colour { Red, Green }` (3). -/
def env94 : Env where
  defs
    | 0 => .cls ⟨.mk [] [⟨b!"speed", b!"speed", Samples.int32⟩] none, b!"Vehicle", none⟩
    | 1 => .cls ⟨.mk [.mk [] [⟨b!"speed", b!"speed", Samples.int32⟩] none] [⟨b!"plate", b!"plate", .str⟩, ⟨b!"colour", b!"colour", .named 3⟩] none, b!"Car", none⟩
    | 2 => .cls ⟨.mk [.mk [] [⟨b!"speed", b!"speed", Samples.int32⟩] none] [⟨b!"gears", b!"gears", .arr 2 Samples.int32⟩] none, b!"Bike", none⟩
    | _ => .enum [(0, b!"Red"), (1, b!"Green")]
  dflt
    | 0 => .obj [] [.int 0]
    | 1 => .obj [.obj [] [.int 0]] [.str [], .enum 0]
    | 2 => .obj [.obj [] [.int 0]] [.list [.int 0, .int 0]]
    | _ => .enum 0
  registry := [(b!"Vehicle", 0), (b!"Car", 1), (b!"Bike", 2)]
  derives c b := decide (c = b) || decide (b = 0)

theorem env94_typed : DefaultsTyped env94 := by
  intro i
  match i with
  | 0 => simp [env94, HasType, OwnHave, ParentsHave, Samples.int32, InRange]
  | 1 => simp [env94, HasType, OwnHave, ParentsHave, Samples.int32, InRange]
  | 2 => simp [env94, HasType, OwnHave, ParentsHave, HaveType, Samples.int32, InRange]
  | n + 3 => simp [env94, HasType]

/-- C94 is false: `{"__type":"Bike"}` is read into a pointer to `Car`. -/
theorem C94_false : ∃ env cfg conv b s ms k, DefaultsTyped env ∧ ¬ C94_claim env cfg conv b s ms k := by
  have hd : JDoc codePair (.obj [(Samples.jstr b!"__type", .scalar (.str (Samples.jstr b!"Bike")))]) b!"{\"__type\":\"Bike\"}" :=
    Samples.plain_doc _ (by decide)
  refine ⟨env94, ⟨.Strict, []⟩, true, 1, Samples.jstr b!"Bike", [], Samples.jstr b!"__type", env94_typed, fun h => ?_⟩
  obtain ⟨e, he⟩ := h 2 _ rfl rfl hd
  rw [C94_foreign_class env94 ⟨.Strict, []⟩ true 1 2 _ rfl _ _ _ _ (by simp) hd rfl rfl rfl] at he
  cases he

/-- non-vacuity: a vector of vehicles, of which the document makes a car and nothing. -/
example : ∃ v, (jsonExtract env94 ⟨.Weak, []⟩ ⟨true, false, false⟩ true (.vec (.pptr 0)) (.list []) b!"[{\"__type\":\"Car\",\"speed\":7,\"colour\":\"Green\"},null]").fate =
      .returned true (some v) ∧ v = .list [.dyn 1 (.obj [.obj [] [.int 7]] [.str [], .enum 1]), .null] ∧ HasType env94 (.vec (.pptr 0)) v := by
  have ht : JText codePair (.arr [.obj [(Samples.jstr b!"__type", .scalar (.str (Samples.jstr b!"Car"))), (Samples.jstr b!"speed", Samples.num 7),
      (Samples.jstr b!"colour", .scalar (.str (Samples.jstr b!"Green")))], .scalar .null]) b!"[{\"__type\":\"Car\",\"speed\":7,\"colour\":\"Green\"},null]" := Samples.plain_text _ (by decide)
  have h := C38_unchecked_tail_ignored env94 ⟨.Weak, []⟩ ⟨true, false, false⟩ true _ [] _ [] Samples.ws_nil ht trivial (.vec (.pptr 0)) (.list [])
    (.list [.dyn 1 (.obj [.obj [] [.int 7]] [.str [], .enum 1]), .null]) rfl rfl
  rw [List.nil_append, List.append_nil] at h
  have h := congrArg Report.fate h
  exact ⟨_, h, rfl, C94_json_partial env94 env94_typed _ _ _ _ _ (by simp [Ty.vec, HasType, HaveType, InSeqOrder]) _ _ _ h⟩

/-- non-vacuity of `C94_any_text_partial`. -/
example (j : Indet) (hj : j.Ranged) (cfg : Cfg) (pol : Policy) (conv : Bool) (t : Bytes) :
    (jsonExtractJ j (env83 true) cfg pol conv (.umap (.named 4)) (.dict []) t).fate ≠ .ub ∧
    ∀ r v, (jsonExtractJ j (env83 true) cfg pol conv (.umap (.named 4)) (.dict []) t).fate = .returned r (some v) → HasType (env83 true) (.umap (.named 4)) v :=
  C94_any_text_partial j hj _ (env83_sound true)
    (by
      intro i
      match i with
      | 0 => simp [env83, HasType, OwnHave, ParentsHave, HaveType, DictHas, InSeqOrder, Ty.vec]
      | 1 => simp [env83, HasType, OwnHave, ParentsHave, HaveType, DictHas, InSeqOrder, Ty.vec]
      | 2 => simp [env83, HasType]
      | 3 => simp [env83, HasType, OwnHave, ParentsHave, HaveType, DictHas, InSeqOrder, Ty.vec]
      | n + 4 => simp [env83, HasType, OwnHave, ParentsHave, HaveType, InSeqOrder, IsFlt, Canon]; exact Nat.two_pow_pos _)
    cfg pol conv _ (by simp [Sound, env83]) _ (by simp [Shaped]) (by simp [HasType, DictHas]) t

end Thors.Props
