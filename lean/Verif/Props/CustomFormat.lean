import Verif.Model.CustomFormat
import Verif.Props.Mongo
import Verif.Props.Unwind
/-
C121: a class with a serialiser of its own is written by the function for the format.
-/
namespace Thors.Props
open Thors Spec StrIn

variable {V : Type} (S : OwnFormat V)

/-- Elements that write themselves as values of type `t`. -/
theorem callsAll_list (env : Env) (marker : Bytes) (p : Side) (t : Ty) (g : V → Val) (h : ∀ v, S.calls p v = traceOf env marker noSize t (g v)) (vs : List V) :
    S.callsAll p vs = traceList env marker noSize t (vs.map g) := by
  induction vs with
  | nil => unfold OwnFormat.callsAll; rw [List.map_nil]; unfold traceList; rfl
  | cons v vs ih =>
    rw [List.map_cons]
    unfold OwnFormat.callsAll traceList
    rw [h v, ih]

/-- C121, JSON: objects whose `writeJson` makes the calls of values of another type, say strings, are exported as these values are, alone and in a `std::vector`; to every
stream, whether it breaks down or not. -/
theorem C121_json (f : V → Traversal) (hf : S.writeJson = some f) (env : Env) (cfg : PrintCfg) (pol : Policy) (t : Ty) (g : V → Val)
    (hg : ∀ v, f v = traceOf env cfg.marker noSize t (g v)) (o : OStream) :
    (∀ v, jsonSendT cfg pol (S.trace .json (.one v)) o = jsonSend env cfg pol t (g v) o) ∧
    (∀ vs, jsonSendT cfg pol (S.trace .json (.vec vs)) o = jsonSend env cfg pol (.vec t) (.list (vs.map g)) o) := by
  have hc : ∀ v, S.calls .json v = traceOf env cfg.marker noSize t (g v) := by
    intro v
    rw [← hg v]
    show (match S.writeJson with | some f => f v | none => _) = _
    rw [hf]
  constructor
  · intro v
    unfold jsonSend OwnFormat.trace
    dsimp only
    rw [hc]
  · intro vs
    unfold jsonSend OwnFormat.trace
    dsimp only
    rw [callsAll_list S env cfg.marker .json t g hc vs]
    conv => rhs; unfold traceOf
    rfl

/-- C121, BSON: the element has the type byte of the class, the key, and the bytes of `writeBson`, provided that `getPrintSizeBson` says their number. -/
theorem C121_bson (n : V → Nat) (w : V → Bytes) (hn : S.sizeBson = some n) (hw : S.writeBson = some w) (v : V) (h : n v = (w v).length) :
    Writes (S.bson v) S.mark (w v) := by
  have e : S.bson v = bsonCustomWrite S.mark (n v) (w v) := by
    funext s
    unfold OwnFormat.bson
    rw [hn, hw]
    rfl
  rw [e]
  exact custom_writes _ _ _ h

/-- C121, reading: in every format the function for this format does it. -/
theorem C121_read (v : V) :
    (∀ f, S.readJson = some f → ∀ p, S.fromJson v p = customRead JsonP.ops (f v) p) ∧
    (∀ f, S.readYaml = some f → ∀ o p, S.fromYaml o v p = customRead o (f v) p) ∧
    (∀ f, S.readBson = some f → ∀ p, S.fromBson v p = customRead BsonP.ops (fun s => bsonCustomRead (f s.type v) s) p) := by
  refine ⟨fun f h p => ?_, fun f h o p => ?_, fun f h p => ?_⟩
  · unfold OwnFormat.fromJson; rw [h]; rfl
  · unfold OwnFormat.fromYaml; rw [h]; rfl
  · unfold OwnFormat.fromBson; rw [h]; rfl

/-- C121, functions a class does not have: the export or import fails with an exception; nothing is made up. -/
theorem C121_missing (v : V) :
    (S.writeJson = none → ∀ cfg pol o, o.fail = false → jsonSendT cfg pol (S.trace .json (.one v)) o = ⟨(pol.handle .std).fate, o.data, true⟩) ∧
    (S.sizeBson = none ∨ S.writeBson = none → ∀ s ws, S.bson v s ≠ .ok ws) ∧
    (S.readJson = none → ∀ p x, S.fromJson v p ≠ .ok x) ∧
    (S.readYaml = none → ∀ o p x, S.fromYaml o v p ≠ .ok x) ∧
    (S.readBson = none → ∀ p x, S.fromBson v p ≠ .ok x) := by
  refine ⟨fun h cfg pol o ho => ?_, fun h s ws e => ?_, fun h p x e => ?_, fun h o p x e => ?_, fun h p x e => ?_⟩
  · have hc : S.trace .json (.one v) = ⟨[], .threw .std⟩ := by
      show (match S.writeJson with | some f => f v | none => _) = _
      rw [h]
    rw [hc]
    unfold jsonSendT
    simp [passThrough, play, unwind, inDtor, putDoc, OStream.putAll, OStream.report, ho]
  · unfold OwnFormat.bson at e
    simp only [Side.printerFormat, FormatType.cast, Res.ok_bind] at e
    rcases h with h | h
    · rw [h] at e; cases e
    · rw [h] at e
      cases hs : S.sizeBson with
      | none => rw [hs] at e; cases e
      | some n =>
        rw [hs] at e
        obtain ⟨_, -, e⟩ := Res.bind_eq_ok.1 e
        cases e
  · unfold OwnFormat.fromJson at e
    simp only [Side.parserFormat, FormatType.cast, Res.ok_bind, h, customRead] at e
    obtain ⟨_, -, e⟩ := Res.bind_eq_ok.1 e
    split at e <;> cases e
  · unfold OwnFormat.fromYaml at e
    simp only [Side.parserFormat, FormatType.cast, Res.ok_bind, h, customRead] at e
    obtain ⟨_, -, e⟩ := Res.bind_eq_ok.1 e
    split at e <;> cases e
  · unfold OwnFormat.fromBson at e
    simp only [Side.parserFormat, FormatType.cast, Res.ok_bind, h, customRead] at e
    obtain ⟨_, -, e⟩ := Res.bind_eq_ok.1 e
    split at e <;> cases e

/-- non-vacuity: ObjectIDs have no function for YAML, and a class without any for JSON. -/
example (o : POps YamlP) (p : PI YamlP) (x) : ObjectID.own.fromYaml o ⟨1, 2, 3, []⟩ p ≠ .ok x := (C121_missing ObjectID.own _).2.2.2.1 rfl o p x
example (cfg : PrintCfg) (o : OStream) (h : o.fail = false) : jsonSendT cfg ⟨true, true, true⟩ (OwnFormat.trace { ObjectID.own with writeJson := none } .json (.one ⟨1, 2, 3, []⟩)) o =
    ⟨(Policy.handle ⟨true, true, true⟩ .std).fate, o.data, true⟩ := (C121_missing _ _).1 rfl cfg _ _ h

/-- C121 is false for YAML, for every class, whatever functions it has: the YAML printer says that it is a JSON printer, and the cast to one throws `std::bad_cast`. Alone or
as a member of a class such an object even ends the program (C119); in a `std::vector` the failure is reported. -/
theorem C121_false {refuse : List YEv → Bool} (em : Emitter refuse) (accepts : Bytes → Bool) (pol : Policy) (v : V) (vs : List V) :
    S.calls .yaml v = ⟨[], .threw .std⟩ ∧
    (yamlSendT accepts refuse pol (S.trace .yaml (.one v))).1 = .terminated ∧
    (∀ key, accepts key = true → (yamlSendT accepts refuse pol (S.member .yaml key v)).1 = .terminated) ∧
    (yamlSendT accepts refuse pol (S.trace .yaml (.vec (v :: vs)))).1 = (pol.handle .std).fate := by
  have hc : ∀ v, S.calls .yaml v = ⟨[], .threw .std⟩ := fun _ => rfl
  have hv : S.trace .yaml (.vec (v :: vs)) = traceOf noteEnv [] noSize (.vec (.opt .bool)) (.list [.none]) := by
    show Traversal.block (.ok 0) .openArray .closeArray ((S.calls .yaml v).andThen (S.callsAll .yaml vs)) = _
    rw [hc v]
    rfl
  refine ⟨hc v, (C119_root_false em accepts noteEnv [] pol .bool).2, fun key hk => ?_, ?_⟩
  · let env : Env := ⟨fun i => if i = 0 then .cls ⟨.mk [] [⟨key, key, .named 1⟩] none, b!"C", none⟩ else .enum [], fun _ => .obj [] [.enum 0], [], fun _ _ => false, fun _ _ _ => false⟩
    have ht : S.member .yaml key v = traceOf env [] noSize (.named 0) (.obj [] [.enum 0]) := rfl
    have h := C119_yaml em accepts env [] pol (.named 0) (.obj [] [.enum 0]) ⟨[.openMap 0, .addKey key], .threw .std⟩ (by
      rw [show traceOf env [] noSize (.named 0) (.obj [] [.enum 0]) = ⟨[.openMap 0, .addKey key], .threw .std⟩ from rfl]
      simp [cutAtText, textTaken, yamlText, hk])
    rw [ht]
    exact h.2.1 .std rfl (.inr ⟨key, rfl⟩)
  · rw [hv]
    exact (C119_yaml em accepts noteEnv [] pol (.vec (.opt .bool)) (.list [.none]) ⟨[.openArray 0], .threw .std⟩ rfl).2.2 .std rfl
      (by rintro (h | ⟨k, h⟩) <;> cases h)

/-- non-vacuity: ObjectIDs, which write themselves as strings. -/
example (cfg : PrintCfg) (pol : Policy) (o : OStream) (ids : List ObjectID) :
    jsonSendT cfg pol (ObjectID.own.trace .json (.vec ids)) o = jsonSend noteEnv cfg pol (.vec .str) (.list (ids.map fun i => .str i.text)) o :=
  (C121_json ObjectID.own _ rfl noteEnv cfg pol .str (fun i => .str i.text) (fun _ => rfl) o).2 ids
example (o : ObjectID) (h : Fits453 o) : Writes (ObjectID.own.bson o) 0x07 o.bson :=
  C121_bson ObjectID.own (fun _ => 12) (fun o => o.bson) rfl rfl o (C43_binary o o h [] [] true).1.symm
/-- non-vacuity: a class that has a function for YAML. -/
example (pol : Policy) : (yamlSendT (fun _ => true) (fun h => decide (expects h = none)) pol
    (OwnFormat.trace { ObjectID.own with writeYaml := some fun o => .call o.json } .yaml (.one ⟨1, 2, 3, []⟩))).1 = .terminated :=
  (C121_false _ emitter_prompt _ pol _ []).2.1

end Thors.Props
