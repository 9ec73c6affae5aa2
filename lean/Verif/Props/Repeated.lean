import Verif.Proofs.Repeated
import Verif.Props.Members
import Verif.Props.Bson
import Verif.Proofs.YamlPresents
/-
C133: of a member that is repeated in an object the last one counts.
-/
namespace Thors.Props
open Thors Thors.Spec StrIn BPrint

/-- C133, JSON. A document whose objects give members of a class more than once is imported like the document in which only the last ones are left, for members of
types that are replaced as a whole; see `C133_false` for the others. -/
theorem C133_json_partial (env : Env) (cfg : Cfg) (conv : Bool) (ty : Ty) (old w : Val) (v v' : JTree) (t t' : Bytes) (hdoc : JDoc codePair v t) (hdoc' : JDoc codePair v' t')
    (hl : LastOnly (jsem conv) env ty v v') (hskip : cfg.strict = .Weak → v.skippable (jsem conv) = true) (hok : jsonImport env cfg conv ty old t = .ok w) :
    jsonImport env cfg conv ty old t' = .ok w := by
  rw [jsonImport_doc env cfg hdoc ty old (.inl hskip)] at hok
  have := imp_lastOnly (jsem conv) env cfg hl old w hok
  rw [jsonImport_doc env cfg hdoc' ty old (.inr (by rw [this]; simp)), this]

/-- C133, BSON. -/
theorem C133_bson_partial (env : Env) (cfg : Cfg) (ty : Ty) (old w : Val) (t t' : BTree) (h : Storable32 t) (h' : Storable32 t')
    (hb : bsonBase env ty = BsonP.rootKind t) (hb' : bsonBase env ty = BsonP.rootKind t') (rest : Bytes) (hl : LastOnly bsem env ty t t')
    (hok : bsonImport env cfg ty old (bdoc t ++ rest) = .ok w) : bsonImport env cfg ty old (bdoc t' ++ rest) = .ok w := by
  rw [bsonImport_doc env cfg t h rest ty hb] at hok
  rw [bsonImport_doc env cfg t' h' rest ty hb']
  exact imp_lastOnly bsem env cfg hl old w hok

/-- C133, YAML. -/
theorem C133_yaml_partial (env : Env) (cfg : Cfg) (ty : Ty) (old w : Val) (v v' : YTree) (es : List YEv) (hl : LastOnly ysem env ty v v')
    (hok : yamlImport env cfg ty old ([.streamStart, .docStart] ++ yevents v ++ .docEnd :: es) = .ok w) :
    yamlImport env cfg ty old ([.streamStart, .docStart] ++ yevents v' ++ .docEnd :: es) = .ok w := by
  rw [yamlImport_doc] at hok ⊢
  exact imp_lastOnly ysem env cfg hl old w hok

/-- C133 is false for containers: their content adds up. `{"why":[1],"why":[2]}` gives a member with both elements, `{"why":[2]}` one with the last. -/
theorem C133_false : ∃ (v v' : JTree) (w w' : Val), v = .obj [(Samples.jstr b!"why", .arr [Samples.num 1]), (Samples.jstr b!"why", .arr [Samples.num 2])] ∧
    v' = .obj [(Samples.jstr b!"why", .arr [Samples.num 2])] ∧ w ≠ w' ∧
    jsonImport Samples.env ⟨.Strict, []⟩ true (.named 1) (Samples.env.dflt 1) (Samples.text v) = .ok w ∧
    jsonImport Samples.env ⟨.Strict, []⟩ true (.named 1) (Samples.env.dflt 1) (Samples.text v') = .ok w' := by
  refine ⟨_, _, .obj [.obj [] [.int 0]] [.int 0, .list [.int 1, .int 2]], .obj [.obj [] [.int 0]] [.int 0, .list [.int 2]], rfl, rfl, by simp, ?_, ?_⟩
  · rw [jsonImport_doc _ _ (Samples.plain_doc _ (by decide)) _ _ (.inl fun h => by cases h)]
    rfl
  · rw [jsonImport_doc _ _ (Samples.plain_doc _ (by decide)) _ _ (.inl fun h => by cases h)]
    rfl

/-- non-vacuity: `{"x":1,"b":5,"x":2}` and `{"b":5,"x":2}`. -/
example : jsonImport Samples.env ⟨.Strict, []⟩ true (.named 1) (Samples.env.dflt 1)
      (Samples.text (.obj ([] ++ [(Samples.jstr b!"b", Samples.num 5), (Samples.jstr b!"x", Samples.num 2)]))) = .ok (.obj [.obj [] [.int 5]] [.int 2, .list []]) := by
  refine C133_json_partial Samples.env ⟨.Strict, []⟩ true (.named 1) _ _
    (.obj ([] ++ (Samples.jstr b!"x", Samples.num 1) :: [(Samples.jstr b!"b", Samples.num 5), (Samples.jstr b!"x", Samples.num 2)])) _ _ _
    (Samples.plain_doc _ (by decide)) (Samples.plain_doc _ (by decide)) (.drop (slot := ⟨[], 0, Samples.int32⟩) rfl rfl trivial ⟨_, .tail _ (.head _), rfl⟩) (fun h => by cases h) ?_
  rw [jsonImport_doc _ _ (Samples.plain_doc _ (by decide)) _ _ (.inl fun h => by cases h)]
  rfl
example : bsonImport oddEnv ⟨.Strict, []⟩ (.named 2) (.obj [] [.bool false, .none]) (bdoc (.obj ([] ++ [(b!"first", .scalar (.bool true))])) ++ []) =
    .ok (.obj [] [.bool true, .none]) := by
  have h : Storable32 (.obj ([] ++ (b!"first", .scalar (.bool false)) :: [(b!"first", .scalar (.bool true))])) :=
    ⟨⟨by decide, trivial, by decide, trivial, trivial⟩, ⟨trivial, trivial, trivial⟩, by decide +kernel⟩
  have h' : Storable32 (.obj ([] ++ [(b!"first", .scalar (.bool true))])) := ⟨⟨by decide, trivial, trivial⟩, ⟨trivial, trivial⟩, by decide +kernel⟩
  refine C133_bson_partial oddEnv ⟨.Strict, []⟩ (.named 2) _ _ (.obj ([] ++ (b!"first", .scalar (.bool false)) :: [(b!"first", .scalar (.bool true))])) _ h
    h' rfl rfl [] (.drop (a := []) (k := b!"first") (b := [(b!"first", .scalar (BScalar.bool true))]) (slot := ⟨[], 0, .bool⟩) rfl rfl trivial ⟨_, .head _, rfl⟩) ?_
  rw [bsonImport_doc _ _ _ h _ _ rfl]
  rfl
example : yamlImport oddEnv ⟨.Strict, []⟩ (.named 2) (.obj [] [.bool false, .none])
    ([.streamStart, .docStart] ++ yevents (.obj ([] ++ [(b!"first", .scalar b!"true")])) ++ .docEnd :: []) = .ok (.obj [] [.bool true, .none]) := by
  refine C133_yaml_partial oddEnv ⟨.Strict, []⟩ (.named 2) _ _ (.obj ([] ++ (b!"first", .scalar b!"false") :: [(b!"first", .scalar b!"true")])) _ []
    (.drop (a := []) (k := b!"first") (b := [(b!"first", .scalar b!"true")]) (slot := ⟨[], 0, .bool⟩) rfl rfl trivial ⟨_, .head _, rfl⟩) ?_
  rw [yamlImport_doc]
  rfl

end Thors.Props
