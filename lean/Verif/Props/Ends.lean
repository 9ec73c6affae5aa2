import Verif.Proofs.EndsExtract
import Verif.Props.Samples
/-
C83: importing a JSON text comes to an end and stays within the objects and the text, whatever the bytes are.
-/
namespace Thors.Props
open Spec StrIn Lean.Order

/-- C83, proved part. Any bytes whatsoever, read from a string into an object of a type built from numbers, booleans, strings, enums,
vectors, lists, sets, maps with string keys, optionals, unique pointers, pointers to polymorphic classes, variants and classes with any members and parents,
in any mode, with any policy about exceptions and trailing data: the import comes to an end, and does nothing undefined on the
way. `j`: where a number is out of range the variable it is put into is left as it was, see C09; whatever is in it. Missing: arrays
and tuples (C40), and containers of pointers; for those the claim is false, see `C83_false`. -/
theorem C83_ends_partial (j : Indet) (env : Env) (hT : SoundTypes env true false) (cfg : Cfg) (pol : Policy) (conv : Bool) (ty : Ty) (old : Val) (t : Bytes)
    (hS : Sound env true false ty) (hO : Shaped env ty old) : (jsonExtractJ j env cfg pol conv ty old t).fate ≠ .ub :=
  JEnds.extract_ends (opsJ j) rfl (JEnds.json_ends_indet j) hT cfg pol conv ty old t hS hO

/-- If no number is out of range this is the import: the report is the same whatever is in the variables. -/
theorem C83_same_report (j : Indet) (env : Env) (cfg : Cfg) (pol : Policy) (conv : Bool) (ty : Ty) (old : Val) (t : Bytes)
    (h : (jsonExtract env cfg pol conv ty old t).fate ≠ .ub) : jsonExtractJ j env cfg pol conv ty old t = jsonExtract env cfg pol conv ty old t :=
  extract_low JsonP.inOps (JEnds.low_indet j) env cfg pol ty old _ h

/-- Without numbers among the members there is nothing indeterminate. -/
theorem C83_without_numbers (env : Env) (hT : SoundTypes env false false) (cfg : Cfg) (pol : Policy) (conv : Bool) (ty : Ty) (old : Val) (t : Bytes)
    (hS : Sound env false false ty) (hO : Shaped env ty old) : (jsonExtract env cfg pol conv ty old t).fate ≠ .ub :=
  JEnds.extract_ends JsonP.ops rfl JEnds.json_ends_plain hT cfg pol conv ty old t hS hO

/-- The types of the examples:
 * 0: `struct Node { std::string name; std::map<std::string, std::unique_ptr<Node>> kids; std::vector<std::string> tags; std::optional<Colour> colour; }`
 * 1: `struct Leaf : Node { std::variant<Node, Leaf> which; Node* next; }`, `Node` being polymorphic
 * 2: `enum Colour { Red, Green }`
 * 3: `std::variant<Node, Leaf>`
 * 4: `struct Weight { double w; std::set<int> s; }` -/
def env83 (num : Bool) : Env where
  defs
    | 0 => .cls ⟨.mk [] [⟨b!"name", b!"name", .str⟩, ⟨b!"kids", b!"kids", .smap (.uptr (.named 0))⟩, ⟨b!"tags", b!"tags", .vec .str⟩,
        ⟨b!"colour", b!"colour", .opt (.named 2)⟩] none, b!"Node", none⟩
    | 1 => .cls ⟨.mk [.mk [] [⟨b!"name", b!"name", .str⟩, ⟨b!"kids", b!"kids", .smap (.uptr (.named 0))⟩, ⟨b!"tags", b!"tags", .vec .str⟩,
        ⟨b!"colour", b!"colour", .opt (.named 2)⟩] none] [⟨b!"which", b!"which", .named 3⟩, ⟨b!"next", b!"next", .pptr 0⟩] none, b!"Leaf", none⟩
    | 2 => .enum [(0, b!"Red"), (1, b!"Green")]
    | 3 => .variant [0, 1]
    | _ => if num then .cls ⟨.mk [] [⟨b!"w", b!"w", .flt f64⟩, ⟨b!"s", b!"s", .seq (.sorted 0) Samples.int32⟩] none, b!"Weight", none⟩ else .enum []
  dflt
    | 0 => .obj [] [.str [], .dict [], .list [], .none]
    | 1 => .obj [.obj [] [.str [], .dict [], .list [], .none]] [.alt 0 (.obj [] [.str [], .dict [], .list [], .none]), .null]
    | 2 => .enum 0
    | 3 => .alt 0 (.obj [] [.str [], .dict [], .list [], .none])
    | _ => if num then .obj [] [.flt (.fin false 0 0), .list []] else .enum 0
  registry := [(b!"Node", 0), (b!"Leaf", 1)]
  derives c b := decide (c = b) || decide (b = 0)

theorem env83_sound (num : Bool) : SoundTypes (env83 num) num false where
  cls i d h := by
    match i with
    | 0 => cases h; simp [SoundStruct, SoundStruct.SoundParents, Sound, env83, nullable, Ty.vec]
    | 1 => cases h; simp [SoundStruct, SoundStruct.SoundParents, Sound, env83, nullable, Ty.vec, isClass]; rintro n c (⟨-, rfl⟩ | ⟨-, rfl⟩) <;> exact ⟨_, rfl⟩
    | 2 => cases h
    | 3 => cases h
    | n + 4 =>
      cases num
      · cases h
      · cases h
        simp [SoundStruct, SoundStruct.SoundParents, Sound, nullable, Samples.int32]
  alts i cs h := by
    match i with
    | 0 => cases h
    | 1 => cases h
    | 2 => cases h
    | 3 => cases h; simp [isClass, env83]
    | n + 4 => cases num <;> cases h
  dflt i := by
    match i with
    | 0 => simp [env83, Shaped, ShapedOwn, ShapedParents, ShapedDict, Ty.vec]
    | 1 => simp [env83, Shaped, ShapedOwn, ShapedParents, ShapedDict, Ty.vec]
    | 2 => simp [env83, Shaped]
    | 3 => simp [env83, Shaped]
    | n + 4 => cases num <;> simp [env83, Shaped, ShapedOwn, ShapedParents]

/-- non-vacuity: every string can be read into a tree of nodes, polymorphic pointers and variants included, … -/
example (cfg : Cfg) (pol : Policy) (conv : Bool) (t : Bytes) :
    (jsonExtract (env83 false) cfg pol conv (.named 1) ((env83 false).dflt 1) t).fate ≠ .ub :=
  C83_without_numbers _ (env83_sound false) cfg pol conv _ _ t (by simp [Sound, env83]) ((env83_sound false).dflt 1)

/-- … and into a map of structs with numbers, whatever is found in the variables. -/
example (j : Indet) (cfg : Cfg) (pol : Policy) (conv : Bool) (t : Bytes) :
    (jsonExtractJ j (env83 true) cfg pol conv (.umap (.named 4)) (.dict []) t).fate ≠ .ub :=
  C83_ends_partial j _ (env83_sound true) cfg pol conv _ _ t (by simp [Sound, env83]) (by simp [Shaped])

/-! ### a vector of pointers -/

/-- The parser behind `[null null`: the text is not a JSON document, the parser is in its error state, and the last lexeme was `null`. -/
def loop83 (conv : Bool) (inp : StrIn) : PI JsonP :=
  PI.init ⟨{ inp := inp, buffer := [], lastToken := some .null_, lastBool := false, lastNull := true, convertBackSlash := conv }, ⟨.ValueA, .Error, [.Done], true⟩⟩

/-- The parser at a place of `[null null`. -/
def at83 (conv : Bool) (pos : Nat) (tok : Lexeme) (null : Bool) (ctl : JCtl) : PI JsonP :=
  PI.init ⟨{ inp := ⟨b!"[null null", pos, true⟩, buffer := [], lastToken := some tok, lastBool := false, lastNull := null, convertBackSlash := conv }, ctl⟩

/-- One round: the parser gives the token `Error`, which is not the end of the array; the pointer asks whether the value is `null`, which the lexer
answers for the last lexeme; four characters are skipped, and a null pointer is appended. -/
theorem C83_round (env : Env) (cfg : Cfg) (conv : Bool) (t : Ty) (vs : List Val) (inp : StrIn) :
    deserVec JsonP.ops env cfg .back (.uptr t) vs (loop83 conv inp) = deserVec JsonP.ops env cfg .back (.uptr t) (vs ++ [.null]) (loop83 conv (inp.ignore 4)) := by
  conv => lhs; rw [deserVec]
  rw [show (loop83 conv inp).getToken JsonP.ops = .ok (.Error, loop83 conv inp) from rfl]
  simp only [Res.ok_bind]
  rw [if_neg (by decide), show (loop83 conv inp).pushBackToken .Error = loop83 conv inp from rfl, deser,
    show (loop83 conv inp).getToken JsonP.ops = .ok (.Error, loop83 conv inp) from rfl]
  simp only [Res.ok_bind]
  rw [if_pos (by rfl), show JsonP.ops.ignoreData (loop83 conv inp).inner = .ok (loop83 conv (inp.ignore 4)).inner from rfl]
  rfl

/-- It goes on like that. -/
theorem loop83_ub (env : Env) (cfg : Cfg) (conv : Bool) (t : Ty) : ∀ vs inp, deserVec JsonP.ops env cfg .back (.uptr t) vs (loop83 conv inp) = .ub := by
  refine fun vs inp => Low.ub ((deser.mutual_fixpoint_induct JsonP.ops env cfg
    (fun f => ∀ old inp, Low (f (.uptr t) old (loop83 conv inp)) (.ok (.null, loop83 conv (inp.ignore 4))))
    (fun _ => True) (fun _ => True) (fun _ => True) (fun _ => True)
    (fun f => ∀ vs inp, Low (f .back (.uptr t) vs (loop83 conv inp)) .ub) ?_ ?_ ?_ ?_ ?_ ?_ ?_ ?_ ?_ ?_ ?_ ?_).2.2.2.2.2 vs inp)
  · exact admissible_pi _ fun old => admissible_pi _ fun inp =>
      admissible_apply (fun (_ : Ty) (f : Val → PI JsonP → Res (Val × PI JsonP)) => Low (f old (loop83 conv inp)) _) _
        (admissible_apply (fun (_ : Val) (f : PI JsonP → Res (Val × PI JsonP)) => Low (f (loop83 conv inp)) _) _
          (admissible_apply (fun (_ : PI JsonP) (r : Res (Val × PI JsonP)) => Low r _) _ (Low.admissible _)))
  · exact admissible_const_true
  · exact admissible_const_true
  · exact admissible_const_true
  · exact admissible_const_true
  · exact admissible_pi _ fun vs => admissible_pi _ fun inp =>
      admissible_apply (fun (_ : SeqKind) (f : Ty → List Val → PI JsonP → Res (Val × PI JsonP)) => Low (f (.uptr t) vs (loop83 conv inp)) _) _
        (admissible_apply (fun (_ : Ty) (f : List Val → PI JsonP → Res (Val × PI JsonP)) => Low (f vs (loop83 conv inp)) _) _
          (admissible_apply (fun (_ : List Val) (f : PI JsonP → Res (Val × PI JsonP)) => Low (f (loop83 conv inp)) _) _
            (admissible_apply (fun (_ : PI JsonP) (r : Res (Val × PI JsonP)) => Low r _) _ (Low.admissible _))))
  · intro fD fc fd ff fv hD hc hd hf hv old inp
    exact .inr rfl
  all_goals try (intros; trivial)
  · intro fD fv hD hv vs inp
    show Low (fD (.uptr t) _ (loop83 conv inp) >>= _) _
    rcases hD ((Ty.uptr t).default env) inp with e | e
    · rw [e]; exact .inl rfl
    · rw [e]; exact hv _ _

/-- C83 is false for containers of pointers. `[null null`, read into a `std::vector<std::unique_ptr<T>>`: the import does not come
to an end. For every `n` it gets to the point where the vector holds `n` null pointers and the loop goes on. -/
theorem C83_false (env : Env) (cfg : Cfg) (pol : Policy) (conv : Bool) (t : Ty) :
    (∀ n : Nat, ∃ inp, deser JsonP.ops env cfg (.vec (.uptr t)) (.list []) (PI.init ⟨(JsonP.ofBytes b!"[null null" conv).lex, ⟨.Done, .Init, [], true⟩⟩) =
      deserVec JsonP.ops env cfg .back (.uptr t) (List.replicate (n + 1) .null) (loop83 conv inp)) ∧
    (jsonExtract env cfg pol conv (.vec (.uptr t)) (.list []) b!"[null null").fate = .ub := by
  have h0 : deser JsonP.ops env cfg (.vec (.uptr t)) (.list []) (PI.init ⟨(JsonP.ofBytes b!"[null null" conv).lex, ⟨.Done, .Init, [], true⟩⟩) =
      deserVec JsonP.ops env cfg .back (.uptr t) [.null] (loop83 conv ⟨b!"[null null", 6, true⟩) := by
    unfold Ty.vec
    rw [deser, show (PI.init (⟨(JsonP.ofBytes b!"[null null" conv).lex, ⟨.Done, .Init, [], true⟩⟩ : JsonP)).getToken JsonP.ops =
      .ok (.ArrayStart, at83 conv 1 .lbracket false ⟨.ValueA, .OpenA, [.Done], true⟩) from rfl]
    simp only [Res.ok_bind]
    rw [if_neg (by decide), deserVec, show (at83 conv 1 .lbracket false ⟨.ValueA, .OpenA, [.Done], true⟩).getToken JsonP.ops =
      .ok (.Value, at83 conv 1 .null_ true ⟨.ValueA, .ValueA, [.Done], true⟩) from rfl]
    simp only [Res.ok_bind]
    rw [if_neg (by decide), deser, show ((at83 conv 1 .null_ true ⟨.ValueA, .ValueA, [.Done], true⟩).pushBackToken .Value).getToken JsonP.ops =
      .ok (.Value, at83 conv 1 .null_ true ⟨.ValueA, .ValueA, [.Done], true⟩) from rfl]
    simp only [Res.ok_bind]
    rw [if_pos (by rfl), show JsonP.ops.ignoreData (at83 conv 1 .null_ true ⟨.ValueA, .ValueA, [.Done], true⟩).inner = .ok (at83 conv 5 .null_ true ⟨.ValueA, .ValueA, [.Done], true⟩).inner from rfl]
    simp only [Res.ok_bind]
    show deserVec JsonP.ops env cfg .back (.uptr t) [.null] (at83 conv 5 .null_ true ⟨.ValueA, .ValueA, [.Done], true⟩) = _
    rw [deserVec, show (at83 conv 5 .null_ true ⟨.ValueA, .ValueA, [.Done], true⟩).getToken JsonP.ops = .ok (.Error, loop83 conv ⟨b!"[null null", 6, true⟩) from rfl]
    conv => rhs; rw [deserVec, show (loop83 conv ⟨b!"[null null", 6, true⟩).getToken JsonP.ops = .ok (.Error, loop83 conv ⟨b!"[null null", 6, true⟩) from rfl]
  have h1 : ∀ n : Nat, ∃ inp, deser JsonP.ops env cfg (.vec (.uptr t)) (.list []) (PI.init ⟨(JsonP.ofBytes b!"[null null" conv).lex, ⟨.Done, .Init, [], true⟩⟩) =
      deserVec JsonP.ops env cfg .back (.uptr t) (List.replicate (n + 1) .null) (loop83 conv inp) := by
    intro n
    induction n with
    | zero => exact ⟨_, h0⟩
    | succ n ih =>
      obtain ⟨inp, e⟩ := ih
      refine ⟨inp.ignore 4, e.trans ((C83_round env cfg conv t _ inp).trans ?_)⟩
      rw [List.replicate_succ' (n := n + 1)]
  refine ⟨h1, ?_⟩
  unfold jsonExtract extract
  rw [show (PI.init (JsonP.ofBytes b!"[null null" conv)).getToken JsonP.inOps.ops = .ok (.DocStart, PI.init ⟨(JsonP.ofBytes b!"[null null" conv).lex, ⟨.Done, .Init, [], true⟩⟩) from rfl]
  simp only [Res.ok_bind, ne_eq, not_true_eq_false, if_false]
  rw [show JsonP.inOps.ops = JsonP.ops from rfl, h0, loop83_ub]

end Thors.Props
