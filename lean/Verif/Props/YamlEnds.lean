import Verif.Proofs.YamlEnds
import Verif.Proofs.YamlPresents
import Verif.Props.Ends
/-
C91: importing YAML comes to an end and stays within the objects, whatever libyaml reports.
-/
namespace Thors.Props
open Spec StrIn

/-- The full statement of C91. -/
def C91_full (env : Env) (cfg : Cfg) : Prop :=
  ∀ (ty : Ty) (old : Val) (es : List YEv), Shaped env ty old → Closes [] es → yamlImport env cfg ty old es ≠ .ub

/-- C91, proved part. libyaml reports any events whatsoever that close collections in the order in which they were opened, and possibly fails
at any point: reading them into an object of a type built from numbers, booleans, strings, enums, sequence containers and sets (of pointers too), maps with
string keys, optionals, unique pointers, pointers to polymorphic classes, variants and classes with any members and parents, in any mode, comes
to an end and does nothing undefined on the way. Missing: arrays and tuples; for those the claim is false, see `C91_false`. -/
theorem C91_yaml_ends_partial (env : Env) (hT : SoundTypes env true true) (cfg : Cfg) (ty : Ty) (old : Val) (es : List YEv)
    (hS : Sound env true true ty) (hO : Shaped env ty old) (hc : Closes [] es) : yamlImport env cfg ty old es ≠ .ub := by
  unfold yamlImport
  exact Res.bind_ne_ub (YEnds.import_ends hT cfg ty old es hS hO hc) (by simp)

/-- C91 is false for arrays: one element too many is written behind the end of a `std::array<bool, 1>`. -/
theorem C91_false (env : Env) (cfg : Cfg) :
    ¬ C91_full env cfg ∧
    ∀ b : Bool, yamlImport env cfg (.arr 1 .bool) (.list [.bool b]) [.streamStart, .docStart, .seqStart, .scalar b!"true", .scalar b!"true", .seqEnd, .docEnd] = .ub := by
  have e : ∀ b : Bool, yamlImport env cfg (.arr 1 .bool) (.list [.bool b]) [.streamStart, .docStart, .seqStart, .scalar b!"true", .scalar b!"true", .seqEnd, .docEnd] = .ub := by
    intro b
    refine (yamlImport_doc env cfg (.arr [.scalar b!"true", .scalar b!"true"]) [] (.arr 1 .bool) (.list [.bool b])).trans ?_
    simp [imp, imp.elems, impArr, impFix, impScalar, ysem]
  exact ⟨fun h => h _ _ _ (by simp [Shaped]) (by simp [Closes]) (e true), e⟩

/-- The types of the examples, with vectors of pointers:
 * 0: `struct Node { std::string name; std::vector<std::unique_ptr<Node>> kids; double w; Node* next; std::variant<Node, Leaf> which; }`, polymorphic
 * 1: `struct Leaf : Node { std::set<int> s; }`
 * 2: `std::variant<Node, Leaf>` -/
def env91 : Env where
  defs
    | 0 => .cls ⟨.mk [] [⟨b!"name", b!"name", .str⟩, ⟨b!"kids", b!"kids", .vec (.uptr (.named 0))⟩, ⟨b!"w", b!"w", .flt f64⟩,
        ⟨b!"next", b!"next", .pptr 0⟩, ⟨b!"which", b!"which", .named 2⟩] none, b!"Node", none⟩
    | 1 => .cls ⟨.mk [.mk [] [⟨b!"name", b!"name", .str⟩, ⟨b!"kids", b!"kids", .vec (.uptr (.named 0))⟩, ⟨b!"w", b!"w", .flt f64⟩,
        ⟨b!"next", b!"next", .pptr 0⟩, ⟨b!"which", b!"which", .named 2⟩] none] [⟨b!"s", b!"s", .seq (.sorted 0) Samples.int32⟩] none, b!"Leaf", none⟩
    | _ => .variant [0, 1]
  dflt
    | 0 => .obj [] [.str [], .list [], .flt (.fin false 0 0), .null, .none]
    | 1 => .obj [.obj [] [.str [], .list [], .flt (.fin false 0 0), .null, .none]] [.list []]
    | _ => .alt 1 (.obj [.obj [] [.str [], .list [], .flt (.fin false 0 0), .null, .none]] [.list []])
  registry := [(b!"Node", 0), (b!"Leaf", 1)]
  derives c b := decide (c = b) || decide (b = 0)

theorem env91_sound : SoundTypes env91 true true where
  cls i d h := by
    match i with
    | 0 =>
      cases h; simp [SoundStruct, SoundStruct.SoundParents, Sound, env91, Ty.vec, isClass]
      rintro n c (⟨-, rfl⟩ | ⟨-, rfl⟩) <;> exact ⟨_, rfl⟩
    | 1 =>
      cases h; simp [SoundStruct, SoundStruct.SoundParents, Sound, env91, Ty.vec, isClass, Samples.int32]
      rintro n c (⟨-, rfl⟩ | ⟨-, rfl⟩) <;> exact ⟨_, rfl⟩
    | n + 2 => cases h
  alts i cs h := by
    match i with
    | 0 => cases h
    | 1 => cases h
    | n + 2 => cases h; simp [isClass, env91]
  dflt i := by
    match i with
    | 0 => simp [env91, Shaped, ShapedOwn, ShapedParents, Ty.vec]
    | 1 => simp [env91, Shaped, ShapedOwn, ShapedParents, Ty.vec]
    | n + 2 => simp [env91, Shaped]

/-- non-vacuity: any events can be read into a tree of such objects, … -/
example (cfg : Cfg) (es : List YEv) (h : Closes [] es) : yamlImport env91 cfg (.named 1) (env91.dflt 1) es ≠ .ub :=
  C91_yaml_ends_partial _ env91_sound cfg _ _ es (by simp [Sound, env91]) (env91_sound.dflt 1) h

/-- … for instance those of a text that breaks off behind `{ name: a, kids: [ null, { <<: *x` and those of two documents, the first of which has a mapping as a key. -/
example : Closes [] [.streamStart, .docStart, .mapStart, .scalar b!"name", .scalar b!"a", .scalar b!"kids", .seqStart, .scalar b!"null", .mapStart, .scalar b!"<<", .alias] ∧
    Closes [] [.streamStart, .docStart, .mapStart, .mapStart, .mapEnd, .scalar [], .mapEnd, .docEnd, .docStart, .scalar b!"x", .docEnd, .streamEnd] := by
  simp [Closes]

/-- The events libyaml reports for a document close their collections, even if a part of them is missing at the end. -/
theorem closes_prefix : ∀ (a b : List YEv) (st : List Bool), Closes st (a ++ b) → Closes st a
  | [], _, _, _ => by simp [Closes]
  | e :: a, b, st, h => by
    cases e <;> (try rcases st with _ | ⟨_ | _, st⟩) <;> simp only [List.cons_append, Closes] at h ⊢ <;> exact closes_prefix a b _ h

mutual
theorem closes_node : ∀ (nd : YNode) (st : List Bool) (es : List YEv), Closes st es → Closes st (nodeEvents nd ++ es)
  | .scalar t, st, es, h => by rcases st with _ | ⟨_ | _, st⟩ <;> exact h
  | .alias, st, es, h => by rcases st with _ | ⟨_ | _, st⟩ <;> exact h
  | .seq ns, st, es, h => by
    simp only [nodeEvents, List.cons_append, List.append_assoc, Closes]
    exact closes_elems ns (false :: st) _ h
  | .map ms, st, es, h => by
    simp only [nodeEvents, List.cons_append, List.append_assoc, Closes]
    exact closes_members ms (true :: st) _ h
theorem closes_elems : ∀ (ns : List YNode) (st : List Bool) (es : List YEv), Closes st es → Closes st (nodeEvents.elems ns ++ es)
  | [], _, _, h => h
  | n :: ns, st, es, h => by
    simp only [nodeEvents.elems, List.append_assoc]
    exact closes_node n st _ (closes_elems ns st es h)
theorem closes_members : ∀ (ms : List (YNode × YNode)) (st : List Bool) (es : List YEv), Closes st es → Closes st (nodeEvents.members ms ++ es)
  | [], _, _, h => h
  | (k, v) :: ms, st, es, h => by
    simp only [nodeEvents.members, List.append_assoc]
    exact closes_node k st _ (closes_node v st _ (closes_members ms st es h))
end

/-- In particular: any part from the beginning of what is reported for any document, aliases and keys that are collections included. -/
theorem C91_document_partial (env : Env) (hT : SoundTypes env true true) (cfg : Cfg) (ty : Ty) (old : Val) (nd : YNode) (es : List YEv)
    (hS : Sound env true true ty) (hO : Shaped env ty old) (hp : es <+: [.streamStart, .docStart] ++ nodeEvents nd ++ [.docEnd, .streamEnd]) :
    yamlImport env cfg ty old es ≠ .ub := by
  obtain ⟨rest, e⟩ := hp
  refine C91_yaml_ends_partial env hT cfg ty old es hS hO (closes_prefix es rest [] ?_)
  rw [e]
  exact closes_node nd [] _ (by simp [Closes])

end Thors.Props
