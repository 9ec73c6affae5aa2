import Verif.Model.Builder
import Verif.Proofs.Alike
import Verif.Proofs.JsonRoundTrip
import Verif.Props.Import
import Verif.Props.RoundTrip
/-
C92: `jsonBuilder<T>(input)`, `bsonBuilder<T>(input)` and `yamlBuilder<T>(input)` return the value in the input.
-/
namespace Thors.Props
open Thors Spec StrIn

variable {σ : Type}

/-- C92, what a builder returns, with any parser (JSON, BSON, YAML), from a string and from a stream: the imported
value if a whole document was read and the input is still good, and `T{}` in all other cases, never an object
that is filled in half. Exceptions come out exactly if the configuration lets them. -/
theorem C92_builder (io : InOps σ) (env : Env) (cfg : Cfg) (pol : Policy) (ty : Ty) (src : Source) (raw fresh : Val) (p : PI σ)
    (hv : pol.validateNoTrailingData = false) :
    (∀ v p', importValue io.ops env cfg ty raw p = .ok (v, p') → io.ok p'.inner = true → builder io env cfg pol ty src raw fresh p = .value v) ∧
    (∀ v p', importValue io.ops env cfg ty raw p = .ok (v, p') → io.ok p'.inner = false → builder io env cfg pol ty src raw fresh p = .value fresh) ∧
    (importValue io.ops env cfg ty raw p = .throw .std →
      builder io env cfg pol ty src raw fresh p = if pol.catchExceptions then .value fresh else .raised .std) ∧
    (importValue io.ops env cfg ty raw p = .throw .unknown →
      builder io env cfg pol ty src raw fresh p = if pol.catchUnknownExceptions then .value fresh else .raised .unknown) ∧
    (importValue io.ops env cfg ty raw p = .throw .deprecated → builder io env cfg pol ty src raw fresh p = .raised .deprecated) := by
  obtain ⟨h1, h2, h3, h4⟩ := C37_import_outcome io env cfg pol ty raw p hv
  unfold builder
  refine ⟨?_, ?_, ?_, ?_, ?_⟩
  · intro v p' h hok
    rw [h1 v p' h, hok]
    cases src <;> rfl
  · intro v p' h hok
    rw [h1 v p' h, hok]
    cases src <;> rfl
  · intro h
    obtain ⟨hs, hf, ht⟩ := h2 h
    cases hc : pol.catchExceptions with
    | false => unfold Report.build; rw [hf hc]; simp
    | true => unfold Report.build; rw [ht hc]; cases src <;> simp [hs]
  · intro h
    obtain ⟨hs, hf, ht⟩ := h3 h
    cases hc : pol.catchUnknownExceptions with
    | false => unfold Report.build; rw [hf hc]; simp
    | true => unfold Report.build; rw [ht hc]; cases src <;> simp [hs]
  · intro h
    unfold Report.build
    rw [h4 h]

/-- C92, the check for trailing data: with or without it, an object that is returned is one that an import made,
or `T{}`. -/
theorem C92_whole (io : InOps σ) (env : Env) (cfg : Cfg) (pol : Policy) (ty : Ty) (src : Source) (raw fresh v : Val) (p : PI σ)
    (h : builder io env cfg pol ty src raw fresh p = .value v) :
    v = fresh ∨ ∃ p1 p2, p.getToken io.ops = .ok (.DocStart, p1) ∧ deser io.ops env cfg ty raw p1 = .ok (v, p2) := by
  unfold builder at h
  have key : ∀ w s, (extract io env cfg pol ty raw p).fate = .returned s (some w) →
      ∃ p1 p2, p.getToken io.ops = .ok (.DocStart, p1) ∧ deser io.ops env cfg ty raw p1 = .ok (w, p2) := by
    intro w s hw
    unfold extract at hw
    cases h1 : p.getToken io.ops with
    | ub => rw [h1] at hw; cases hw
    | throw e =>
      rw [h1] at hw
      cases e <;> simp [Res.throw_bind, Policy.handle] at hw <;> (try split at hw) <;> simp at hw
    | ok a =>
      rw [h1, Res.ok_bind] at hw
      by_cases h2 : a.1 ≠ .DocStart
      · simp only [if_pos h2, throwStd, Policy.handle] at hw
        split at hw <;> simp at hw
      · simp only [if_neg h2] at hw
        cases h3 : deser io.ops env cfg ty raw a.2 with
        | ub => rw [h3] at hw; simp at hw
        | throw e =>
          rw [h3] at hw
          cases e <;> simp [Policy.handle] at hw <;> (try split at hw) <;> simp at hw
        | ok b =>
          rw [h3] at hw
          have ha : a = (.DocStart, a.2) := by
            obtain ⟨x, y⟩ := a
            simp only [ne_eq, Decidable.not_not] at h2
            simp [h2]
          refine ⟨a.2, b.2, by rw [← ha], ?_⟩
          have hb : w = b.1 := by
            simp only at hw
            cases h4 : (trailing io pol b.2).2.getToken io.ops with
            | ub => rw [h4] at hw; simp at hw
            | throw e =>
              rw [h4] at hw
              cases e <;> simp [Policy.handle] at hw <;> (repeat' split at hw) <;> simp at hw
            | ok c =>
              rw [h4] at hw
              simp only [Policy.handle] at hw
              repeat' split at hw
              all_goals simp at hw
              exact hw.2.symm
          rw [hb, h3]
  unfold Report.build at h
  cases hf : (extract io env cfg pol ty raw p).fate with
  | ub => rw [hf] at h; cases h
  | terminated => rw [hf] at h; cases h
  | raised e => rw [hf] at h; cases h
  | returned s w =>
    rw [hf] at h
    dsimp only at h
    have hsplit : v = fresh ∨ w = some v := by
      have : ∀ good : Bool, (if good = true then (match w with | some v => Built.value v | none => Built.ub) else .value fresh) = .value v → v = fresh ∨ w = some v := by
        intro good h
        cases good with
        | false => left; simpa using h.symm
        | true =>
          right
          cases w with
          | none => simp at h
          | some w => simpa using h
      exact this _ h
    rcases hsplit with e | e
    · exact .inl e
    · rw [e] at hf
      exact .inr (key v s hf)

/-- C92, in Exact mode: whatever the input, in every format, the result does not depend on what `T value;` happens to
leave in the numbers of the object. In particular it is what an import into `T{}` gives. -/
theorem C92_determined_partial (io : InOps σ) (env : Env) (cfg : Cfg) (pol : Policy) (ty : Ty) (src : Source) (raw raw' fresh : Val) (p : PI σ)
    (hx : cfg.strict = .Exact) (hn : Distinct env) (h : Alike env ty raw raw') :
    builder io env cfg pol ty src raw fresh p = builder io env cfg pol ty src raw' fresh p := by
  unfold builder extract
  simp only [deser_alike io.ops hx hn h]

/-- C92, round trip: an exported value (under the conditions of C23) is what the builder returns. -/
theorem C92_round_trip_partial (env : Env) (pcfg : PrintCfg) (cfg : Cfg) (pol : Policy) (ty : Ty) (v raw fresh : Val) (d : Doc) (post : Bytes)
    (hv : pol.validateNoTrailingData = false) (hg : GoodTypes env) (hnf : ∀ i c, env.defs i = .cls c → NoFilter c.traits)
    (hm : cfg.marker = pcfg.marker) (hx : cfg.strict = .Exact → ExactTypes env)
    (hd : docOf env pcfg.marker ty v = .ok d) (hs : Storable env pcfg.marker ty v) (ho : Fresh env ty raw)
    (hk : AllKeys cleanKey d) (ha : AllScalars sixAtom d) (hf : FitsIndent pcfg (nesting d)) (hp : mayFollow d post) :
    ∃ text, jsonExport env pcfg ty v = .ok text ∧ jsonBuilder env cfg pol true ty raw fresh (text ++ post) = .value v := by
  obtain ⟨text, p, h1, h2, -, h3⟩ := json_round_trip_ok env pcfg cfg ty v raw d post hg hm hx hd hs ho hk ha hf (mayFollow_ends hp)
  rw [restored_val env pcfg.marker hg hnf v ty raw hs ho] at h2
  exact ⟨text, h1, (C92_builder JsonP.inOps env cfg pol ty .string raw fresh _ hv).1 v p h2 h3⟩

/-- `struct Inner { int b; }`, `struct Outer : Inner { int first; bool second; std::string name; Colour c; Inner in; }` -/
private def env92 : Env where
  defs
    | 0 => .cls ⟨.mk [] [⟨b!"b", b!"b", Samples.int32⟩] none, b!"Inner", none⟩
    | 1 => .cls ⟨.mk [.mk [] [⟨b!"b", b!"b", Samples.int32⟩] none] [⟨b!"first", b!"first", Samples.int32⟩, ⟨b!"second", b!"second", .bool⟩,
        ⟨b!"name", b!"name", .str⟩, ⟨b!"c", b!"c", .named 2⟩, ⟨b!"in", b!"in", .named 0⟩] none, b!"Outer", none⟩
    | _ => .enum [(0, b!"Red"), (1, b!"Green")]
  dflt
    | 0 => .obj [] [.int 0]
    | 1 => .obj [.obj [] [.int 0]] [.int 0, .bool false, .str [], .enum 0, .obj [] [.int 0]]
    | _ => .enum 0
  registry := []
  derives _ _ := false

private def outer92 (a b : Int) (c : Bool) (d e : Int) : Val := .obj [.obj [] [.int a]] [.int b, .bool c, .str [], .enum d, .obj [] [.int e]]

/-- non-vacuity: distinct names; two states of an uninitialised object with a base, an enumeration and a member object. -/
example : Distinct env92 := by
  intro i c h
  match i, h with
  | 0, h => cases h; constructor <;> simp [allMembers, allMembers.inherited]
  | 1, h => cases h; constructor <;> simp [allMembers, allMembers.inherited] <;> decide
  | i + 2, h => cases h
example : Alike env92 (.named 1) (outer92 1 2 true 3 4) (outer92 5 6 false 7 8) := by
  refine .cls (c := ⟨.mk [.mk [] [⟨b!"b", b!"b", Samples.int32⟩] none] [⟨b!"first", b!"first", Samples.int32⟩, ⟨b!"second", b!"second", .bool⟩,
        ⟨b!"name", b!"name", .str⟩, ⟨b!"c", b!"c", .named 2⟩, ⟨b!"in", b!"in", .named 0⟩] none, b!"Outer", none⟩) rfl
    (.obj (.cons (.int _ _ _) (.cons (.bool _ _) (.cons (.same _ _) (.cons (.enum (table := [(0, b!"Red"), (1, b!"Green")]) _ _ rfl) (.cons ?_ .nil))))) (.cons ?_ .nil))
  · exact .cls (c := ⟨.mk [] [⟨b!"b", b!"b", Samples.int32⟩] none, b!"Inner", none⟩) rfl (.obj (.cons (.int _ _ _) .nil) .nil)
  · exact .obj (.cons (.int _ _ _) .nil) .nil

/-- C92 with other modes is false: with the default configuration (Weak), `jsonBuilder` of `{}` into a struct with a number
gives an object with an indeterminate value, not `T{}`. -/
theorem C92_false (marker : Bytes) :
    ∃ (env : Env) (raw raw' : Val), Distinct env ∧ Alike env (.named 0) raw raw' ∧
      ∀ pol : Policy, pol.validateNoTrailingData = false → ∀ fresh,
        jsonBuilder env ⟨.Weak, marker⟩ pol true (.named 0) raw fresh b!"{}" ≠ jsonBuilder env ⟨.Weak, marker⟩ pol true (.named 0) raw' fresh b!"{}" := by
  refine ⟨Samples.env, .obj [] [.int 5], .obj [] [.int 7], ?_, .cls (c := ⟨.mk [] [⟨b!"b", b!"b", Samples.int32⟩] none, b!"Base", none⟩) rfl
    (.obj (.cons (.int _ _ _) .nil) .nil), ?_⟩
  · intro i c h
    match i, h with
    | 0, h => cases h; constructor <;> simp [allMembers, allMembers.inherited]
    | 1, h => cases h; constructor <;> simp [allMembers, allMembers.inherited] <;> decide
    | 2, h => cases h; constructor <;> simp [allMembers, allMembers.inherited] <;> decide
    | 3, h => cases h
    | 4, h => cases h
    | i + 5, h => cases h; constructor <;> simp [allMembers, allMembers.inherited] <;> decide
  · intro pol hv fresh
    have hd : JText codePair (.obj []) b!"{}" := Samples.plain_text (.obj []) (by decide)
    have h (n : Int) : jsonBuilder Samples.env ⟨.Weak, marker⟩ pol true (.named 0) (.obj [] [.int n]) fresh b!"{}" = .value (.obj [] [.int n]) := by
      have := C38_unchecked_tail_ignored Samples.env ⟨.Weak, marker⟩ pol true (.obj []) [] b!"{}" [] Samples.ws_nil hd trivial (.named 0) (.obj [] [.int n])
        (.obj [] [.int n]) rfl hv
      rw [List.nil_append, List.append_nil] at this
      unfold jsonBuilder builder
      rw [show extract JsonP.inOps Samples.env ⟨.Weak, marker⟩ pol (.named 0) (.obj [] [.int n]) (PI.init (JsonP.ofBytes b!"{}" true)) = _ from this]
      rfl
    rw [h 5, h 7]
    intro e
    simp at e

/-- C92 for fixed size arrays is false in Exact mode too: a shorter array leaves the other elements as they were. -/
theorem C92_false_array (env : Env) (marker : Bytes) (pol : Policy) (hv : pol.validateNoTrailingData = false) (n : Int) (fresh : Val) :
    jsonBuilder env ⟨.Exact, marker⟩ pol true (.arr 2 Samples.int32) (.list [.int n, .int n]) fresh b!"[1]" = .value (.list [.int 1, .int n]) := by
  have hd : JText codePair (.arr [Samples.num 1]) b!"[1]" := Samples.plain_text _ (by decide)
  have := C38_unchecked_tail_ignored env ⟨.Exact, marker⟩ pol true (.arr [Samples.num 1]) [] b!"[1]" [] Samples.ws_nil hd trivial (.arr 2 Samples.int32)
    (.list [.int n, .int n]) (.list [.int 1, .int n]) rfl hv
  rw [List.nil_append, List.append_nil] at this
  unfold jsonBuilder builder
  rw [show extract JsonP.inOps env ⟨.Exact, marker⟩ pol (.arr 2 Samples.int32) (.list [.int n, .int n]) (PI.init (JsonP.ofBytes b!"[1]" true)) = _ from this]
  rfl

/-- non-vacuity of C92_builder: `[1]` read into a `std::vector<int>` and into a `bool`. -/
example (pol : Policy) (hv : pol.validateNoTrailingData = false) (hc : pol.catchExceptions = true) :
    jsonBuilder Samples.env ⟨.Weak, []⟩ pol true (.vec Samples.int32) (.list []) (.list []) b!"[1]" = .value (.list [.int 1]) ∧
    jsonBuilder Samples.env ⟨.Weak, []⟩ pol true .bool (.bool true) (.bool false) b!"[1]" = .value (.bool false) := by
  have ht : JText codePair (.arr [Samples.num 1]) b!"[1]" := Samples.plain_text _ (by decide)
  constructor
  · have := json_import_match Samples.env ⟨.Weak, []⟩ (conv := true) (w := []) (post := []) (by simp [Ws]) ht trivial (.vec Samples.int32) (.list [])
    rw [show imp (jsem true) Samples.env ⟨.Weak, []⟩ (.arr [Samples.num 1]) (.vec Samples.int32) (.list []) = .ok (.list [.int 1]) from rfl] at this
    obtain ⟨s, e, h⟩ := this
    exact (C92_builder JsonP.inOps _ _ pol _ .string _ _ _ hv).1 _ _ e h.inp.2.1
  · have h := (C92_builder JsonP.inOps Samples.env ⟨.Weak, []⟩ pol .bool .string (.bool true) (.bool false) (PI.init (JsonP.ofBytes b!"[1]" true)) hv).2.2.1
      (json_import_match Samples.env ⟨.Weak, []⟩ (conv := true) (w := []) (post := []) (by simp [Ws]) ht trivial .bool (.bool true))
    rw [hc] at h
    exact h

end Thors.Props
