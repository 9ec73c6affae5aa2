import Verif.Model.Importer
import Verif.Props.Samples
/-
C37: the outcome of an import or export. C38: trailing data.
-/
namespace Thors.Props
open Thors Spec StrIn

variable {σ : Type}

/-- C37, imports: with any parser (JSON, BSON, YAML) and any input.
 * If parsing a whole document succeeds, the call returns the value, and reports success exactly when the
   stream is good.
 * If an ordinary exception is thrown the stream is failed, and the call raises it exactly when
   `catchExceptions` is off; otherwise it reports failure.
 * The same for an unknown exception and `catchUnknownExceptions`.
 * A deprecated-use error propagates whatever the flags. -/
theorem C37_import_outcome (io : InOps σ) (env : Env) (cfg : Cfg) (pol : Policy) (ty : Ty) (old : Val) (p : PI σ)
    (hv : pol.validateNoTrailingData = false) :
    (∀ v p', importValue io.ops env cfg ty old p = .ok (v, p') →
      extract io env cfg pol ty old p = ⟨.returned (io.ok p'.inner) (some v), some (io.ok p'.inner)⟩) ∧
    (importValue io.ops env cfg ty old p = .throw .std →
      (extract io env cfg pol ty old p).stream = some false ∧
      (pol.catchExceptions = false → (extract io env cfg pol ty old p).fate = .raised .std) ∧
      (pol.catchExceptions = true → (extract io env cfg pol ty old p).fate = .returned false none)) ∧
    (importValue io.ops env cfg ty old p = .throw .unknown →
      (extract io env cfg pol ty old p).stream = some false ∧
      (pol.catchUnknownExceptions = false → (extract io env cfg pol ty old p).fate = .raised .unknown) ∧
      (pol.catchUnknownExceptions = true → (extract io env cfg pol ty old p).fate = .returned false none)) ∧
    (importValue io.ops env cfg ty old p = .throw .deprecated → (extract io env cfg pol ty old p).fate = .raised .deprecated) := by
  have key : extract io env cfg pol ty old p = match importValue io.ops env cfg ty old p with
      | .ok (v, p') => ⟨.returned (io.ok p'.inner) (some v), some (io.ok p'.inner)⟩
      | .throw e => pol.handle e
      | .ub => ⟨.ub, none⟩ := by
    unfold extract importValue
    cases h1 : p.getToken io.ops with
    | ub => rfl
    | throw e => rfl
    | ok a =>
      simp only [Res.ok_bind]
      by_cases h2 : a.1 ≠ .DocStart
      · simp only [if_pos h2]
      · simp only [if_neg h2]
        cases h3 : deser io.ops env cfg ty old a.2 with
        | ub => rfl
        | throw e => rfl
        | ok b =>
          simp only [Res.ok_bind]
          rw [show trailing io pol b.2 = (false, b.2) by unfold trailing; rw [if_neg (by simp [hv])]]
          simp only
          cases h4 : b.2.getToken io.ops with
          | ub => rfl
          | throw e => rfl
          | ok c =>
            simp only [Res.ok_bind]
            by_cases h5 : c.1 ≠ .DocEnd
            · simp only [if_pos h5]; rfl
            · simp only [if_neg h5]; rfl
  rw [key]
  refine ⟨?_, ?_, ?_, ?_⟩
  · intro v p' h; rw [h]
  · intro h; rw [h]; cases h1 : pol.catchExceptions <;> simp [Policy.handle, h1]
  · intro h; rw [h]; cases h1 : pol.catchUnknownExceptions <;> simp [Policy.handle, h1]
  · intro h; rw [h]; rfl

/-- C37, exports: the same policy for whatever the printer does. -/
theorem C37_export_outcome {α : Type} (ok : α → Bool) (pol : Policy) (run : Res α) :
    (∀ a, run = .ok a → inserter ok pol run = ⟨.returned (ok a) (some a), some (ok a)⟩) ∧
    (run = .throw .std → (inserter ok pol run).stream = some false ∧
      (pol.catchExceptions = false → (inserter ok pol run).fate = .raised .std) ∧
      (pol.catchExceptions = true → (inserter ok pol run).fate = .returned false none)) ∧
    (run = .throw .unknown → (inserter ok pol run).stream = some false ∧
      (pol.catchUnknownExceptions = false → (inserter ok pol run).fate = .raised .unknown) ∧
      (pol.catchUnknownExceptions = true → (inserter ok pol run).fate = .returned false none)) ∧
    (run = .throw .deprecated → (inserter ok pol run).fate = .raised .deprecated) := by
  refine ⟨?_, ?_, ?_, ?_⟩
  · rintro a rfl; rfl
  · rintro rfl; cases h1 : pol.catchExceptions <;> simp [inserter, Policy.handle, h1]
  · rintro rfl; cases h1 : pol.catchUnknownExceptions <;> simp [inserter, Policy.handle, h1]
  · rintro rfl; rfl

/-! ### C38 -/

/-- Only white space as C++ streams see it. -/
def blank (t : Bytes) : Prop := ∀ c ∈ t, c = 0x20 ∨ c = 0x09 ∨ c = 0x0A ∨ c = 0x0D ∨ c = 0x0B ∨ c = 0x0C

instance (t : Bytes) : Decidable (blank t) := by unfold blank; infer_instance

theorem isSpace_iff (c : Byte) : isSpace c = true ↔ c = 0x20 ∨ c = 0x09 ∨ c = 0x0A ∨ c = 0x0D ∨ c = 0x0B ∨ c = 0x0C := by
  simp [isSpace]

theorem spaces_blank {t : Bytes} (h : blank t) : spaces t = t.length := by
  induction t with
  | nil => rfl
  | cons c t ih =>
    rw [spaces, if_pos ((isSpace_iff c).mpr (h c (by simp))), ih (fun c hc => h c (by simp [hc]))]
    rfl

theorem spaces_not_blank {t : Bytes} (h : ¬ blank t) : spaces t < t.length := by
  induction t with
  | nil => exact absurd (by intro c hc; simp at hc) h
  | cons c t ih =>
    rw [spaces]
    split
    · rename_i hc
      have := ih (fun hb => h (by
        intro d hd
        rcases List.mem_cons.mp hd with rfl | hd
        · exact (isSpace_iff d).mp hc
        · exact hb d hd))
      simpa using this
    · simp

/-- Reading one more character when the input stands at `t`. -/
theorem readChar_ok {s : StrIn} {t : Bytes} (h : AtI t s) : (s.readChar).2.isOk = decide (¬ blank t) := by
  obtain ⟨h1, h2, h3⟩ := h
  have hl : s.data.length = s.pos + t.length := by
    rw [← h1]; simp only [rest, List.length_drop]; omega
  have hd : s.data.drop s.pos = t := h1
  unfold StrIn.readChar StrIn.isOk
  simp only [if_pos h3, hd]
  by_cases hb : blank t
  · rw [spaces_blank hb]; simp [hb]; omega
  · have := spaces_not_blank hb; simp [hb]; omega

theorem trailing_at (pol : Policy) {l : Lexer} {c : JCtl} {t : Bytes} (h : AtI t l.inp) :
    ∃ l', trailing JsonP.inOps pol (PI.init ⟨l, c⟩) = (decide (pol.validateNoTrailingData = true ∧ ¬ blank t), PI.init ⟨l', c⟩) ∧
      (¬ (pol.validateNoTrailingData = true ∧ ¬ blank t) → l'.inp.isOk = true) := by
  have hok : JsonP.inOps.ok (PI.init (⟨l, c⟩ : JsonP)).inner = true := h.2.1
  have hr : JsonP.inOps.ok (JsonP.inOps.readChar (PI.init (⟨l, c⟩ : JsonP)).inner).2 = decide (¬ blank t) := readChar_ok h
  unfold trailing
  by_cases hval : pol.validateNoTrailingData = true
  · rw [if_pos ⟨hval, hok⟩]
    simp only [hr]
    by_cases hb : blank t
    · rw [if_pos (by simpa using hb)]
      exact ⟨{ l with inp := (l.inp.readChar).2.clear }, by simp [hb]; rfl, fun _ => rfl⟩
    · rw [if_neg (by simpa using hb)]
      exact ⟨{ l with inp := (l.inp.readChar).2 }, by simp [hb, hval]; rfl, fun h => absurd ⟨hval, hb⟩ h⟩
  · rw [if_neg (fun h => hval h.1)]
    exact ⟨l, by simp [hval], fun _ => hok⟩

/-- Deserialising a document that stands in front of `post` leaves the reader at `post`. -/
theorem extract_doc (env : Env) (cfg : Cfg) (pol : Policy) {conv : Bool} {v : JTree} {w tv post : Bytes} (hw : Ws w) (hv : JText codePair v tv)
    (hp : Ends v post) (ty : Ty) (old x : Val) (h : imp (jsem conv) env cfg v ty old = .ok x) :
    jsonExtract env cfg pol conv ty old (w ++ tv ++ post) =
      if pol.validateNoTrailingData = true ∧ ¬ blank post then pol.handle .std else ⟨.returned true (some x), some true⟩ := by
  have h1 := presents_text conv v tv hv ⟨.Done, .Init, [], true⟩ w post
    ⟨(JsonP.ofBytes (w ++ tv ++ post) conv).lex, ⟨.Done, .Init, [], true⟩⟩ (.init hw) hp
    ⟨rfl, ⟨by simp [JsonP.ofBytes, StrIn.ofBytes, StrIn.rest], rfl, by simp [JsonP.ofBytes, StrIn.ofBytes]⟩, rfl⟩
  have h2 := deser_presents JsonP.ops (jsem conv) env cfg h1 ty old
  rw [h] at h2
  obtain ⟨⟨l, c⟩, e2, hc, hi, hcv⟩ := h2
  simp only at hc
  subst hc
  have hend : ∀ l' : Lexer, (PI.init (⟨l', (⟨.Done, .Init, [], true⟩ : JCtl).done⟩ : JsonP)).getToken JsonP.ops = .ok (.DocEnd, PI.init ⟨l', ctlEnd⟩) :=
    fun _ => rfl
  have hstart : (PI.init (JsonP.ofBytes (w ++ tv ++ post) conv)).getToken JsonP.ops =
    .ok (.DocStart, PI.init ⟨(JsonP.ofBytes (w ++ tv ++ post) conv).lex, ⟨.Done, .Init, [], true⟩⟩) := rfl
  unfold jsonExtract extract
  simp only [show JsonP.inOps.ops = JsonP.ops from rfl, hstart, Res.ok_bind, ne_eq, not_true_eq_false, if_false, e2]
  obtain ⟨l', e3, h3⟩ := trailing_at (c := (⟨.Done, .Init, [], true⟩ : JCtl).done) pol hi
  simp only [e3, hend]
  by_cases hb : pol.validateNoTrailingData = true ∧ ¬ blank post
  · simp [hb]
  · have h4 := h3 hb
    simp only [hb, decide_false, if_false, Bool.false_eq_true, PI.init, show ∀ s : JsonP, JsonP.inOps.ok s = s.lex.inp.isOk from fun _ => rfl, h4, not_true_eq_false]

/-- C38, positive half: a document followed only by white space imports with the trailing data check on, as without. -/
theorem C38_blank_tail_accepted (env : Env) (cfg : Cfg) (pol : Policy) (conv : Bool) (v : JTree) (w tv post : Bytes) (hw : Ws w)
    (hv : JText codePair v tv) (hp : Ends v post) (ty : Ty) (old x : Val) (hi : imp (jsem conv) env cfg v ty old = .ok x) (hb : blank post) :
    jsonExtract env cfg pol conv ty old (w ++ tv ++ post) = ⟨.returned true (some x), some true⟩ := by
  rw [extract_doc env cfg pol hw hv hp ty old x hi, if_neg (fun h => h.2 hb)]

/-- C38, negative half: any other text behind the document makes the checked import fail: it reports failure, or
raises if `catchExceptions` is off, and the stream is failed. -/
theorem C38_trailing_data_rejected (env : Env) (cfg : Cfg) (pol : Policy) (conv : Bool) (v : JTree) (w tv post : Bytes) (hw : Ws w)
    (hv : JText codePair v tv) (hp : Ends v post) (ty : Ty) (old x : Val) (hi : imp (jsem conv) env cfg v ty old = .ok x)
    (hval : pol.validateNoTrailingData = true) (hb : ¬ blank post) :
    (jsonExtract env cfg pol conv ty old (w ++ tv ++ post)).stream = some false ∧
    (jsonExtract env cfg pol conv ty old (w ++ tv ++ post)).fate = (if pol.catchExceptions then .returned false none else .raised .std) := by
  rw [extract_doc env cfg pol hw hv hp ty old x hi, if_pos ⟨hval, hb⟩]
  cases h : pol.catchExceptions <;> simp [Policy.handle, h]

/-- C38, without the check the text behind the document is left alone: the import succeeds whatever it is. -/
theorem C38_unchecked_tail_ignored (env : Env) (cfg : Cfg) (pol : Policy) (conv : Bool) (v : JTree) (w tv post : Bytes) (hw : Ws w)
    (hv : JText codePair v tv) (hp : Ends v post) (ty : Ty) (old x : Val) (hi : imp (jsem conv) env cfg v ty old = .ok x)
    (hval : pol.validateNoTrailingData = false) :
    jsonExtract env cfg pol conv ty old (w ++ tv ++ post) = ⟨.returned true (some x), some true⟩ := by
  rw [extract_doc env cfg pol hw hv hp ty old x hi, if_neg (by simp [hval])]

/-- non-vacuity: `[1,2]` in front of ` x` and of `\v\n`, into a `std::vector<int>`. -/
example : ∃ v : JTree, JText codePair v b!"[1,2]" ∧ Ends v b!" x" ∧ ¬ blank b!" x" ∧ blank b!"\x0b\n" ∧
    imp (jsem true) Samples.env ⟨.Strict, []⟩ v (.vec Samples.int32) (.list []) = .ok (.list [.int 1, .int 2]) :=
  ⟨.arr [Samples.num 1, Samples.num 2], Samples.plain_text _ (by decide), trivial, by decide, by decide, rfl⟩

/-- non-vacuity for numbers, which may be followed by anything that does not continue them. -/
example : JText codePair (Samples.num 7) b!"7" ∧ Ends (Samples.num 7) b!"x" ∧ ¬ Ends (Samples.num 7) b!"7" :=
  ⟨Samples.plain_text _ (by decide), (by decide : valueEnds b!"x"), (by decide : ¬ valueEnds b!"7")⟩

/-- non-vacuity of C37: a parse that succeeds and one that throws. -/
example : (∃ v p, importValue JsonP.ops Samples.env ⟨.Strict, []⟩ (.vec Samples.int32) (.list []) (PI.init (JsonP.ofBytes b!"[1]" true)) = .ok (v, p)) ∧
    importValue JsonP.ops Samples.env ⟨.Strict, []⟩ .bool (.bool false) (PI.init (JsonP.ofBytes b!"[1]" true)) = .throw .std := by
  have hv : JText codePair (.arr [Samples.num 1]) b!"[1]" := Samples.plain_text _ (by decide)
  constructor
  · have := json_import_match Samples.env ⟨.Strict, []⟩ (conv := true) (w := []) (post := []) (by simp [Ws]) hv trivial (.vec Samples.int32) (.list [])
    rw [show imp (jsem true) Samples.env ⟨.Strict, []⟩ (.arr [Samples.num 1]) (.vec Samples.int32) (.list []) = .ok (.list [.int 1]) from rfl] at this
    obtain ⟨s, e, -⟩ := this
    exact ⟨_, _, e⟩
  · exact json_import_match Samples.env ⟨.Strict, []⟩ (conv := true) (w := []) (post := []) (by simp [Ws]) hv trivial .bool (.bool false)

end Thors.Props
