import Verif.Proofs.JsonCut3
import Verif.Props.Samples
/-
C79: a JSON document that was cut short is not taken for a document.
-/
namespace Thors.Props
open Spec StrIn

/-- C79, proved part. Cut a JSON document whose value is not a number anywhere before its end: at the start, in white space, in the
middle of a literal, a string, an escape sequence, behind a comma, before the last bracket. Importing what is left, into a value of any type,
with any configuration and any policy about exceptions and trailing data, does not report success: `extract` does not return true, and `>>` does
not leave the stream in a good state. Missing, in Weak mode only: documents with a string or key whose body ends in a backslash or
contains the byte 0xFF; there the claim is false, see `C79_false_in_weak_mode`. -/
theorem C79_cut_partial (env : Env) (cfg : Cfg) (pol : Policy) (conv : Bool) (ty : Ty) (old : Val) (v : JTree) (w tv cut rest : Bytes)
    (hw : Ws w) (hv : JText codePair v tv) (hnum : ∀ x, v = .scalar x → x.number = none)
    (hrest : rest ≠ []) (hcut : cut ++ rest = w ++ tv) (hweak : cfg.strict = .Weak → v.skippable (jsem conv) = true) :
    (∀ x, (jsonExtract env cfg pol conv ty old cut).fate ≠ .returned true x) ∧ (jsonExtract env cfg pol conv ty old cut).stream ≠ some true :=
  cut_unaccepted hw hv hnum hrest hcut hweak pol ty old

/-- In Strict and Exact mode nothing is missing. -/
theorem C79_strict (env : Env) (cfg : Cfg) (hs : cfg.strict ≠ .Weak) (pol : Policy) (conv : Bool) (ty : Ty) (old : Val) (v : JTree) (w tv cut rest : Bytes)
    (hw : Ws w) (hv : JText codePair v tv) (hnum : ∀ x, v = .scalar x → x.number = none) (hrest : rest ≠ []) (hcut : cut ++ rest = w ++ tv) :
    (∀ x, (jsonExtract env cfg pol conv ty old cut).fate ≠ .returned true x) ∧ (jsonExtract env cfg pol conv ty old cut).stream ≠ some true :=
  C79_cut_partial env cfg pol conv ty old v w tv cut rest hw hv hnum hrest hcut fun h => absurd h hs

/-- The document of the examples: `{"b":2,"x":[3]}`. -/
def doc79 : JTree := .obj [(Samples.jstr b!"b", Samples.num 2), (Samples.jstr b!"x", .arr [Samples.num 3])]

/-- non-vacuity: every beginning of `{"b":2,"x":[3]}`, in every mode, … -/
example (cfg : Cfg) (pol : Policy) (n : Nat) (hn : n < 15) (x : Option Val) :
    (jsonExtract Samples.env cfg pol true (.named 0) (Samples.env.dflt 0) (b!"{\"b\":2,\"x\":[3]}".take n)).fate ≠ .returned true x := by
  refine (C79_cut_partial Samples.env cfg pol true (.named 0) _ doc79 [] b!"{\"b\":2,\"x\":[3]}" _ (b!"{\"b\":2,\"x\":[3]}".drop n) (by simp [Ws])
    (Samples.plain_text doc79 (by decide)) (by intro x h; cases h) ?_ (List.take_append_drop _ _) (fun _ => by decide)).1 x
  intro h
  have := congrArg List.length h
  rw [List.length_drop] at this
  simp at this
  omega

/-- … while the whole document is imported. -/
example : jsonImport Samples.env ⟨.Weak, []⟩ true (.named 0) (Samples.env.dflt 0) b!"{\"b\":2,\"x\":[3]}" = .ok (.obj [] [.int 2]) :=
  Samples.import_plain doc79 (by decide) rfl _ _ _ _ _ (by decide)

/-- The parser in the middle of `{"x":"\\","}`. -/
def cutState (pos : Nat) (buffer : Bytes) (tok : Option Lexeme) (ctl : JCtl) : JsonP :=
  ⟨{ inp := ⟨b!"{\"x\":\"\\\\\",\"}", pos, true⟩, buffer := buffer, lastToken := tok, lastBool := false, lastNull := false, convertBackSlash := true }, ctl⟩

/-- C79 is false in Weak mode. `{"x":"\\","}":1}` is a document, an object with the members `x` (one backslash) and `}`. Cut in the middle of
its second key, `{"x":"\\","}`, it is imported with success into a struct that has no member `x`: skipping `"\\"` runs past the
closing quote, and the brace in the key ends the object. -/
theorem C79_false_in_weak_mode :
    ¬ ∀ (env : Env) (cfg : Cfg) (pol : Policy) (conv : Bool) (ty : Ty) (old : Val) (v : JTree) (w tv cut rest : Bytes),
      Ws w → JText codePair v tv → (∀ x, v = .scalar x → x.number = none) → rest ≠ [] → cut ++ rest = w ++ tv →
      (∀ x, (jsonExtract env cfg pol conv ty old cut).fate ≠ .returned true x) ∧ (jsonExtract env cfg pol conv ty old cut).stream ≠ some true := by
  intro h
  have hdoc : JText codePair (.obj [(⟨b!"x", b!"x"⟩, .scalar (.str ⟨b!"\\\\", b!"\\"⟩)), (⟨b!"}", b!"}"⟩, Samples.num 1)]) b!"{\"x\":\"\\\\\",\"}\":1}" := by
    refine ⟨[b!"\"x\":\"\\\\\"", b!"\"}\":1"], ?_, rfl⟩
    refine ⟨[], [], [], b!"\"\\\\\"", [], [b!"\"}\":1"], by simp [Ws], by simp [Ws], by simp [Ws], by simp [Ws], ?_, ⟨.basic (.short .backslash) .nil, rfl⟩, ?_, rfl⟩
    · exact .basic (.raw _ (by decide) (by decide) (by decide)) .nil
    · refine ⟨[], [], [], b!"1", [], [], by simp [Ws], by simp [Ws], by simp [Ws], by simp [Ws], ?_, Samples.plain_text (Samples.num 1) (by decide), rfl, rfl⟩
      exact .basic (.raw _ (by decide) (by decide) (by decide)) .nil
  have h1 := (h Samples.env ⟨.Weak, []⟩ ⟨true, true, true⟩ true (.named 0) (Samples.env.dflt 0) _ [] _ b!"{\"x\":\"\\\\\",\"}" b!"\":1}" (by simp [Ws]) hdoc
    (by intro x h; cases h) (by simp) rfl).1 (some (Samples.env.dflt 0))
  have hd : deser JsonP.ops Samples.env ⟨.Weak, []⟩ (.named 0) (Samples.env.dflt 0) (PI.init (begun b!"{\"x\":\"\\\\\",\"}" true)) =
      .ok (Samples.env.dflt 0, PI.init (cutState 12 b!"x" (some .rbrace) ⟨.Done, .Done, [], true⟩)) := by
    rw [deser]
    show deserClass JsonP.ops Samples.env ⟨.Weak, []⟩ (.mk [] [⟨b!"b", b!"b", Samples.int32⟩] none) (Samples.env.dflt 0) _ = _
    rw [deserClass]
    rw [show (PI.init (begun b!"{\"x\":\"\\\\\",\"}" true)).getToken JsonP.ops =
      .ok (.MapStart, PI.init (cutState 1 [] (some .lbrace) ⟨.ValueM, .OpenM, [.Done], true⟩)) from rfl]
    simp only [Res.ok_bind, ne_eq, not_true_eq_false, if_false]
    rw [deserMembers]
    rw [show (PI.init (cutState 1 [] (some .lbrace) ⟨.ValueM, .OpenM, [.Done], true⟩)).getToken JsonP.ops =
      .ok (.Key, PI.init (cutState 1 [] (some .string) ⟨.ValueM, .Key, [.Done], true⟩)) from rfl]
    simp only [Res.ok_bind, reduceCtorEq, if_false]
    rw [show (PI.init (cutState 1 [] (some .string) ⟨.ValueM, .Key, [.Done], true⟩)).lift
        (JsonP.ops.getKey (PI.init (cutState 1 [] (some .string) ⟨.ValueM, .Key, [.Done], true⟩)).inner) =
      .ok (b!"x", PI.init (cutState 4 b!"x" (some .string) ⟨.ValueM, .Key, [.Done], true⟩)) from rfl]
    simp only [Res.ok_bind]
    rw [show (StructDef.mk [] [⟨b!"b", b!"b", Samples.int32⟩] none).find b!"x" = none from rfl]
    simp only
    have hi : PI.ignoreValue JsonP.ops .Weak (PI.init (cutState 4 b!"x" (some .string) ⟨.ValueM, .Key, [.Done], true⟩)) =
        .ok (PI.init (cutState 11 b!"x" (some .string) ⟨.ValueM, .ValueM, [.Done], true⟩)) := by
      unfold PI.ignoreValue
      rw [if_neg (by simp), ignoreTheValue]
      rfl
    rw [hi]
    simp only [Res.ok_bind]
    rw [deserMembers]
    rw [show (PI.init (cutState 11 b!"x" (some .string) ⟨.ValueM, .ValueM, [.Done], true⟩)).getToken JsonP.ops =
      .ok (.MapEnd, PI.init (cutState 12 b!"x" (some .rbrace) ⟨.Done, .Done, [], true⟩)) from rfl]
    rfl
  apply h1
  unfold jsonExtract extract
  rw [show (PI.init (JsonP.ofBytes b!"{\"x\":\"\\\\\",\"}" true)).getToken JsonP.inOps.ops = .ok (.DocStart, PI.init (begun b!"{\"x\":\"\\\\\",\"}" true)) from rfl]
  simp only [show JsonP.inOps.ops = JsonP.ops from rfl, Res.ok_bind, ne_eq, not_true_eq_false, if_false, hd]
  rfl

end Thors.Props
