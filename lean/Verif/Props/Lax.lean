import Verif.Proofs.Lax4
import Verif.Props.Import
import Verif.Props.JsonCut
/-
C96: what an import reports as read is JSON.
-/
namespace Thors.Props
open Spec StrIn

/-- C96, proved part. Whenever an import of a text, any text, into a value of any type reports success, the text begins with a document of the
JSON grammar: one value, with brackets and braces that match, elements and members separated by one comma each, every member a key, a colon and a
value; and with the check for trailing data only white space follows. Missing: where RFC 8259 has its lexical rules for white space and scalars,
the ones here are laxer: see `lax` (Spec/Lexis.lean) and `C96_false`. -/
theorem C96_any_text_partial (env : Env) (cfg : Cfg) (pol : Policy) (conv : Bool) (ty : Ty) (old : Val) (t : Bytes) (r : Option Val)
    (h : (jsonExtract env cfg pol conv ty old t).fate = .returned true r) :
    ∃ u rest, t = u ++ rest ∧ (lax (Occurs env ty) (cfg.strict = .Weak) conv).Doc u ∧ (pol.validateNoTrailingData = true → blank rest) :=
  extract_lax env cfg pol conv ty old t r h

/-- The grammar with the lexical rules of the RFC is the grammar of the other properties about JSON texts. -/
theorem C96_grammar (t : Bytes) : rfc.Value t ↔ ∃ v, JText rfcPair v t := by
  constructor
  · intro h
    obtain ⟨v, h, -⟩ := tree_of_value (g := rfc) (pr := rfcPair) (P := fun _ => True) (fun _ h => h) (fun t ⟨x, h⟩ => ⟨x, h, trivial⟩)
      (fun t ⟨b, o, h, e⟩ => ⟨⟨b, o⟩, h, e⟩) h
    exact ⟨v, h⟩
  · rintro ⟨v, h⟩
    exact value_of_tree v t h

/-- The types without numbers and without pointers. -/
def Wordy (env : Env) (ty : Ty) : Prop :=
  ∀ t, Occurs env ty t → (∀ k, t ≠ .int k) ∧ (∀ f, t ≠ .flt f) ∧ (∀ e, t ≠ .uptr e) ∧ ∀ b, t ≠ .pptr b

/-- C96 for types made of strings, booleans, enums, containers, optionals, tuples and classes, in Strict and Exact mode, with escapes converted,
and texts without vertical tabs and form feeds: what is read is a JSON document of RFC 8259, and the value delivered is the one the
document stands for. -/
theorem C96_strict_partial (env : Env) (cfg : Cfg) (hs : cfg.strict ≠ .Weak) (pol : Policy) (ty : Ty) (hty : Wordy env ty) (old : Val) (t : Bytes)
    (hsp : ∀ c ∈ t, c ≠ 0x0B ∧ c ≠ 0x0C) (r : Option Val) (h : (jsonExtract env cfg pol true ty old t).fate = .returned true r) :
    ∃ (v : JTree) (w tv rest : Bytes), Ws w ∧ JText codePair v tv ∧ t = w ++ tv ++ rest ∧ (pol.validateNoTrailingData = true → Ws rest) ∧
      ∀ x, imp (jsem true) env cfg v ty old = .ok x → r = some x := by
  obtain ⟨u, rest, e, ⟨w, tv, hw, hv, rfl⟩, hr⟩ := C96_any_text_partial env cfg pol true ty old t r h
  have ws : ∀ a b c, t = a ++ b ++ c → blank b → Ws b := by
    intro a b c e hb x hx
    have hm : x ∈ t := by rw [e]; simp [hx]
    rcases hb x hx with h | h | h | h | h | h
    · exact .inl h
    · exact .inr (.inl h)
    · exact .inr (.inr (.inl h))
    · exact .inr (.inr (.inr h))
    · exact absurd h (hsp x hm).1
    · exact absurd h (hsp x hm).2
  have str : ∀ b, StrText true b → ∃ s : JStr, Body codePair s.raw s.dec ∧ b = [0x22] ++ s.raw ++ [0x22] := by
    rintro b ⟨body, o, hb, rfl⟩
    obtain ⟨o', hb'⟩ := body_retag (pr' := codePair) hb
    exact ⟨⟨body, o'⟩, hb', rfl⟩
  obtain ⟨v, h1, h2⟩ := tree_of_value (g := (lax (Occurs env ty) (cfg.strict = .Weak) true).within fun c => c ≠ 0x0B ∧ c ≠ 0x0C) (pr := codePair)
    (P := fun x => x.number = none)
    (by
      rintro c ⟨h | h | h | h | h | h, h1, h2⟩
      · exact .inl h
      · exact .inr (.inl h)
      · exact .inr (.inr (.inl h))
      · exact .inr (.inr (.inr h))
      · exact absurd h h1
      · exact absurd h h2)
    (by
      rintro b (⟨k, hk, -⟩ | ⟨f, hf, -⟩ | ⟨-, rfl | rfl⟩ | hb | ⟨⟨e, he⟩ | ⟨p, hp⟩, -⟩ | ⟨hw, -⟩)
      · exact absurd rfl ((hty _ hk).1 k)
      · exact absurd rfl ((hty _ hf).2.1 f)
      · exact ⟨.bool true, rfl, rfl⟩
      · exact ⟨.bool false, rfl, rfl⟩
      · obtain ⟨s, h1, h2⟩ := str b hb
        exact ⟨.str s, ⟨h1, h2⟩, rfl⟩
      · exact absurd rfl ((hty _ he).2.2.1 e)
      · exact absurd rfl ((hty _ hp).2.2.2 p)
      · exact absurd hw hs)
    (by
      rintro b (hb | ⟨hw, -⟩)
      · exact str b hb
      · exact absurd hw hs)
    (value_within hv fun c hc => hsp c (by rw [e]; simp [hc]))
  have h2 : ∀ post, Ends v post := by
    intro post
    unfold Ends
    split
    · have := h2 _ rfl; cases this
    · have := h2 _ rfl; cases this
    · trivial
  have hww := ws [] w (tv ++ rest) (by rw [e]; simp) hw
  refine ⟨v, w, tv, rest, hww, h1, e, fun hval => ws (w ++ tv) rest [] (by rw [e]; simp) (hr hval), fun x hx => ?_⟩
  rw [e, extract_doc env cfg pol hww h1 (h2 rest) ty old x hx] at h
  split at h
  · unfold Policy.handle at h
    dsimp only at h
    split at h <;> cases h
  · cases h; rfl

/-- The first character of a value of RFC 8259. -/
theorem rfc_head {v : Bytes} (h : rfc.Value v) : ∃ c r, v = c :: r ∧ (isDigit c = true ∨ c = 0x2D ∨ c = 0x22 ∨ c = 0x5B ∨ c = 0x7B ∨ v = b!"null" ∨ v = b!"true" ∨ v = b!"false") := by
  have int : ∀ a i, IntLit a i → ∃ c r, a = c :: r ∧ (isDigit c = true ∨ c = 0x2D) := by
    rintro a i (h | h)
    · obtain ⟨h1, h2, -⟩ := dec_iff.1 h
      cases a with
      | nil => exact absurd rfl h1
      | cons c r => exact ⟨c, r, rfl, .inl (h2 c (by simp))⟩
    · exact ⟨_, _, rfl, .inr rfl⟩
  cases h with
  | scalar h =>
    obtain ⟨x, h⟩ := h
    cases x with
    | null => exact ⟨_, _, h, by simp only [ScalarText] at h; simp [h]⟩
    | bool b =>
      cases b
      · exact ⟨_, _, h, by simp only [ScalarText] at h; simp [h]⟩
      · exact ⟨_, _, h, by simp only [ScalarText] at h; simp [h]⟩
    | int t i =>
      obtain ⟨c, r, e, hc⟩ := int _ _ h.2.1
      exact ⟨c, r, e, by rcases hc with h | h <;> simp [h]⟩
    | frac t x =>
      obtain ⟨a, i, f, e, h1, -, -, -, -, rfl⟩ := h.2.1
      obtain ⟨c, r, rfl, hc⟩ := int _ _ h1
      exact ⟨c, _, rfl, by rcases hc with h | h <;> simp [h]⟩
    | str s => exact ⟨_, _, h.2, by simp⟩
  | arr0 h => exact ⟨_, _, rfl, by simp⟩
  | arr h h' => exact ⟨_, _, rfl, by simp⟩
  | obj0 h => exact ⟨_, _, rfl, by simp⟩
  | obj h h' => exact ⟨_, _, rfl, by simp⟩

/-- A text that does not begin with white space nor with a value of RFC 8259. -/
theorem not_rfc {c : Byte} {t u rest : Bytes} (e : c :: t = u ++ rest) (hw : ¬ rfc.space c) (hc : isDigit c = false ∧ c ≠ 0x2D ∧ c ≠ 0x22 ∧ c ≠ 0x5B ∧ c ≠ 0x7B)
    (hl : ∀ r, c :: t ≠ b!"null" ++ r ∧ c :: t ≠ b!"true" ++ r ∧ c :: t ≠ b!"false" ++ r) : ¬ rfc.Doc u := by
  rintro ⟨w, v, h1, h2, rfl⟩
  cases w with
  | cons d w =>
    simp at e
    exact hw (e.1 ▸ h1 d (by simp))
  | nil =>
    obtain ⟨d, r, h3, h4⟩ := rfc_head h2
    rw [List.nil_append] at e
    have hd : c = d := by rw [h3] at e; simp at e; exact e.1
    subst hd
    rcases h4 with h | h | h | h | h | h | h | h
    · simp [hc.1] at h
    · exact hc.2.1 h
    · exact hc.2.2.1 h
    · exact hc.2.2.2.1 h
    · exact hc.2.2.2.2 h
    · rw [h] at e; exact (hl rest).1 e
    · rw [h] at e; exact (hl rest).2.1 e
    · rw [h] at e; exact (hl rest).2.2 e

/-- The shape of the witnesses: a text is imported with success, but no beginning of it is a JSON document. -/
def Impostor (ty : Ty) (old : Val) (t : Bytes) : Prop :=
  (∃ x, (jsonExtract Samples.env ⟨.Strict, []⟩ ⟨true, true, false⟩ true ty old t).fate = .returned true (some x)) ∧ ∀ u rest, t = u ++ rest → ¬ rfc.Doc u

/-- `nope` is read as a null pointer. -/
theorem C96_nope : Impostor (.uptr .bool) .null b!"nope" := by
  refine ⟨⟨.null, ?_⟩, fun u rest e => not_rfc e (by simp [rfc]) (by decide) (by simp)⟩
  have hd : deser JsonP.ops Samples.env ⟨.Strict, []⟩ (.uptr .bool) .null (PI.init (begun b!"nope" true)) =
      .ok (.null, PI.init ⟨{ inp := ⟨b!"nope", 4, true⟩, buffer := [], lastToken := some .null_, lastBool := false, lastNull := true, convertBackSlash := true },
        ⟨.Done, .Done, [], true⟩⟩) := by
    rw [deser]
    rfl
  unfold jsonExtract extract
  rw [show (PI.init (JsonP.ofBytes b!"nope" true)).getToken JsonP.inOps.ops = .ok (.DocStart, PI.init (begun b!"nope" true)) from rfl]
  simp only [show JsonP.inOps.ops = JsonP.ops from rfl, Res.ok_bind, ne_eq, not_true_eq_false, if_false, hd]
  rfl

/-- `inf` is read as a `double`, … -/
theorem C96_inf : Impostor (.flt f64) (.flt (.fin false 0 0)) b!"inf" := by
  refine ⟨⟨.flt (.inf false), ?_⟩, fun u rest e => not_rfc e (by simp [rfc]) (by decide) (by simp)⟩
  have hd : deser JsonP.ops Samples.env ⟨.Strict, []⟩ (.flt f64) (.flt (.fin false 0 0)) (PI.init (begun b!"inf" true)) =
      .ok (.flt (.inf false), PI.init ⟨{ inp := ⟨b!"inf", 3, true⟩, buffer := [], lastToken := some .number, lastBool := false, lastNull := false, convertBackSlash := true },
        ⟨.Done, .Done, [], true⟩⟩) := by
    rw [deser]
    rfl
  unfold jsonExtract extract
  rw [show (PI.init (JsonP.ofBytes b!"inf" true)).getToken JsonP.inOps.ops = .ok (.DocStart, PI.init (begun b!"inf" true)) from rfl]
  simp only [show JsonP.inOps.ops = JsonP.ops from rfl, Res.ok_bind, ne_eq, not_true_eq_false, if_false, hd]
  rfl

/-- … and a vertical tab as white space. -/
theorem C96_tab : Impostor .bool (.bool false) b!"\x0btrue" := by
  refine ⟨⟨.bool true, ?_⟩, fun u rest e => not_rfc e (by simp [rfc]) (by decide) (by simp)⟩
  have hd : deser JsonP.ops Samples.env ⟨.Strict, []⟩ .bool (.bool false) (PI.init (begun b!"\x0btrue" true)) =
      .ok (.bool true, PI.init ⟨{ inp := ⟨b!"\x0btrue", 5, true⟩, buffer := b!"true", lastToken := some .true_, lastBool := true, lastNull := false, convertBackSlash := true },
        ⟨.Done, .Done, [], true⟩⟩) := by
    rw [deser]
    rfl
  unfold jsonExtract extract
  rw [show (PI.init (JsonP.ofBytes b!"\x0btrue" true)).getToken JsonP.inOps.ops = .ok (.DocStart, PI.init (begun b!"\x0btrue" true)) from rfl]
  simp only [show JsonP.inOps.ops = JsonP.ops from rfl, Res.ok_bind, ne_eq, not_true_eq_false, if_false, hd]
  rfl

/-- C96 is false as it stands: `nope` is imported as a null pointer, … -/
theorem C96_false : ¬ ∀ (env : Env) (cfg : Cfg) (pol : Policy) (conv : Bool) (ty : Ty) (old : Val) (t : Bytes) (r : Option Val), cfg.strict ≠ .Weak → conv = true →
    (jsonExtract env cfg pol conv ty old t).fate = .returned true r → ∃ u rest, t = u ++ rest ∧ rfc.Doc u := by
  intro h
  obtain ⟨⟨x, h1⟩, h2⟩ := C96_nope
  obtain ⟨u, rest, e, h3⟩ := h _ _ _ _ _ _ _ _ (by simp) rfl h1
  exact h2 u rest e h3

/-- … `007` is imported as the integer seven, even if nothing may follow the document, … -/
theorem C96_zeros : (jsonExtract Samples.env ⟨.Strict, []⟩ ⟨true, true, true⟩ true Samples.int32 (.int 0) b!"007").fate = .returned true (some (.int 7)) ∧
    ¬ rfc.Doc b!"007" := by
  constructor
  · have hd : deser JsonP.ops Samples.env ⟨.Strict, []⟩ Samples.int32 (.int 0) (PI.init (begun b!"007" true)) =
        .ok (.int 7, PI.init ⟨{ inp := ⟨b!"007", 3, true⟩, buffer := [], lastToken := some .number, lastBool := false, lastNull := false, convertBackSlash := true },
          ⟨.Done, .Done, [], true⟩⟩) := by
      show deser JsonP.ops Samples.env ⟨.Strict, []⟩ (.int _) (.int 0) (PI.init (begun b!"007" true)) = _
      rw [deser]
      rfl
    unfold jsonExtract extract
    rw [show (PI.init (JsonP.ofBytes b!"007" true)).getToken JsonP.inOps.ops = .ok (.DocStart, PI.init (begun b!"007" true)) from rfl]
    simp only [show JsonP.inOps.ops = JsonP.ops from rfl, Res.ok_bind, ne_eq, not_true_eq_false, if_false, hd]
    rfl
  · rintro ⟨w, v, h1, h2, e⟩
    cases w with
    | cons d w =>
      simp at e
      have := h1 d (by simp)
      rw [← e.1] at this
      simp [rfc] at this
    | nil =>
      rw [List.nil_append] at e
      subst e
      have hz : litLeadingZero b!"007" := trivial
      generalize hg : b!"007" = t at h2
      cases h2 with
      | scalar h =>
        obtain ⟨x, h⟩ := h
        subst hg
        cases x with
        | null => simp [ScalarText] at h
        | bool b => cases b <;> simp [ScalarText] at h
        | int t i => exact h.2.2 hz
        | str s => simp [ScalarText] at h
        | frac t x =>
          obtain ⟨a, i, f, e, h1, h2, h3, h4, h5, h6⟩ := h.2.1
          have hz : ∀ d, isDigit d = true → f ++ e ≠ d :: (f ++ e).tail := by
            intro d hd h
            rcases h3 with rfl | ⟨ds, -, rfl⟩
            · rcases h4 with rfl | ⟨c, sg, ds, hc, -, -, rfl⟩
              · simp at h
              · simp at h
                rcases hc with rfl | rfl <;> (rw [← h] at hd; simp [isDigit] at hd)
            · simp at h
              rw [← h] at hd
              simp [isDigit] at hd
          match a, h1, h2, h6 with
          | [], h1, _, _ => cases h1 with | pos h => exact (dec_iff.1 h).1 rfl
          | [a], _, _, h6 =>
            simp at h6
            exact hz 0x30 (by decide) (by rw [← h6.2]; rfl)
          | a :: b :: r, _, h2, h6 =>
            simp at h6
            rw [← h6.1, ← h6.2.1] at h2
            exact h2 trivial
      | arr0 => simp at hg
      | arr => simp at hg
      | obj0 => simp at hg
      | obj => simp at hg

/-- The parser in the middle of `{"x":tuna}`. -/
def tunaState (pos : Nat) (buffer : Bytes) (tok : Option Lexeme) (ctl : JCtl) (b : Bool := false) : JsonP :=
  ⟨{ inp := ⟨b!"{\"x\":tuna}", pos, true⟩, buffer := buffer, lastToken := tok, lastBool := b, lastNull := false, convertBackSlash := true }, ctl⟩

/-- … and in Weak mode a word that begins with a t passes for `true` as the value of a member the class does not have. -/
theorem C96_skipped_word : (jsonExtract Samples.env ⟨.Weak, []⟩ ⟨true, true, true⟩ true (.named 0) (Samples.env.dflt 0) b!"{\"x\":tuna}").fate =
    .returned true (some (Samples.env.dflt 0)) := by
  have hd : deser JsonP.ops Samples.env ⟨.Weak, []⟩ (.named 0) (Samples.env.dflt 0) (PI.init (begun b!"{\"x\":tuna}" true)) =
      .ok (Samples.env.dflt 0, PI.init (tunaState 10 b!"x" (some .rbrace) ⟨.Done, .Done, [], true⟩ true)) := by
    rw [deser]
    show deserClass JsonP.ops Samples.env ⟨.Weak, []⟩ (.mk [] [⟨b!"b", b!"b", Samples.int32⟩] none) (Samples.env.dflt 0) _ = _
    rw [deserClass]
    rw [show (PI.init (begun b!"{\"x\":tuna}" true)).getToken JsonP.ops =
      .ok (.MapStart, PI.init (tunaState 1 [] (some .lbrace) ⟨.ValueM, .OpenM, [.Done], true⟩)) from rfl]
    simp only [Res.ok_bind, ne_eq, not_true_eq_false, if_false]
    rw [deserMembers]
    rw [show (PI.init (tunaState 1 [] (some .lbrace) ⟨.ValueM, .OpenM, [.Done], true⟩)).getToken JsonP.ops =
      .ok (.Key, PI.init (tunaState 1 [] (some .string) ⟨.ValueM, .Key, [.Done], true⟩)) from rfl]
    simp only [Res.ok_bind, reduceCtorEq, if_false]
    rw [show (PI.init (tunaState 1 [] (some .string) ⟨.ValueM, .Key, [.Done], true⟩)).lift
        (JsonP.ops.getKey (PI.init (tunaState 1 [] (some .string) ⟨.ValueM, .Key, [.Done], true⟩)).inner) =
      .ok (b!"x", PI.init (tunaState 4 b!"x" (some .string) ⟨.ValueM, .Key, [.Done], true⟩)) from rfl]
    simp only [Res.ok_bind]
    rw [show (StructDef.mk [] [⟨b!"b", b!"b", Samples.int32⟩] none).find b!"x" = none from rfl]
    simp only
    have hi : PI.ignoreValue JsonP.ops .Weak (PI.init (tunaState 4 b!"x" (some .string) ⟨.ValueM, .Key, [.Done], true⟩)) =
        .ok (PI.init (tunaState 9 b!"x" (some .true_) ⟨.ValueM, .ValueM, [.Done], true⟩ true)) := by
      unfold PI.ignoreValue
      rw [if_neg (by simp), ignoreTheValue]
      rfl
    rw [hi]
    simp only [Res.ok_bind]
    rw [deserMembers]
    rw [show (PI.init (tunaState 9 b!"x" (some .true_) ⟨.ValueM, .ValueM, [.Done], true⟩ true)).getToken JsonP.ops =
      .ok (.MapEnd, PI.init (tunaState 10 b!"x" (some .rbrace) ⟨.Done, .Done, [], true⟩ true)) from rfl]
    rfl
  unfold jsonExtract extract
  rw [show (PI.init (JsonP.ofBytes b!"{\"x\":tuna}" true)).getToken JsonP.inOps.ops = .ok (.DocStart, PI.init (begun b!"{\"x\":tuna}" true)) from rfl]
  simp only [show JsonP.inOps.ops = JsonP.ops from rfl, Res.ok_bind, ne_eq, not_true_eq_false, if_false, hd]
  rfl

/-- non-vacuity of `C96_strict_partial`: a map from strings to vectors of strings, … -/
theorem wordy_sample : Wordy Samples.env (.smap (.vec .str)) := by
  have : ∀ t, Occurs Samples.env (.smap (.vec .str)) t → t = .smap (.vec .str) ∨ t = .vec .str ∨ t = .str := by
    intro t h
    induction h with
    | self => exact .inl rfl
    | seq _ ih => rcases ih with h | h | h <;> cases h; exact .inr (.inr rfl)
    | arr _ ih => rcases ih with h | h | h <;> cases h
    | smap _ ih => rcases ih with h | h | h <;> cases h; exact .inr (.inl rfl)
    | mmap _ ih => rcases ih with h | h | h <;> cases h
    | umap _ ih => rcases ih with h | h | h <;> cases h
    | opt _ ih => rcases ih with h | h | h <;> cases h
    | uptr _ ih => rcases ih with h | h | h <;> cases h
    | pptr _ _ ih => rcases ih with h | h | h <;> cases h
    | tuple _ _ _ ih => rcases ih with h | h | h <;> cases h
    | alt _ _ _ ih => rcases ih with h | h | h <;> cases h
    | member _ _ _ ih => rcases ih with h | h | h <;> cases h
  intro t h
  rcases this t h with rfl | rfl | rfl <;> simp [Ty.vec]

/-- … and a text that is imported into it with success. -/
example : (jsonExtract Samples.env ⟨.Strict, []⟩ ⟨true, true, true⟩ true (.smap (.vec .str)) (.dict []) b!"{\"k\":[\"a\",\"\"]}").fate =
      .returned true (some (.dict [(b!"k", .list [.str b!"a", .str []])])) ∧ ∀ c ∈ b!"{\"k\":[\"a\",\"\"]}", c ≠ 0x0B ∧ c ≠ 0x0C := by
  refine ⟨?_, by decide⟩
  have ht : JText codePair (.obj [(Samples.jstr b!"k", .arr [.scalar (.str (Samples.jstr b!"a")), .scalar (.str (Samples.jstr b!""))])]) b!"{\"k\":[\"a\",\"\"]}" :=
    Samples.plain_text _ (by decide)
  have h := C38_blank_tail_accepted Samples.env ⟨.Strict, []⟩ ⟨true, true, true⟩ true _ [] _ [] Samples.ws_nil ht trivial (.smap (.vec .str)) (.dict [])
    (.dict [(b!"k", .list [.str b!"a", .str []])]) rfl (by simp [blank])
  rw [List.nil_append, List.append_nil] at h
  exact congrArg Report.fate h

/-- non-vacuity of `C96_any_text_partial`, and what it says of texts that are not JSON: no text that begins with a comma is imported into anything. -/
example (env : Env) (cfg : Cfg) (pol : Policy) (conv : Bool) (ty : Ty) (old : Val) (t : Bytes) (r : Option Val) (hS : ∀ t, Occurs env ty t → t = .bool ∨ t = .vec .bool)
    (hs : cfg.strict ≠ .Weak) : (jsonExtract env cfg pol conv ty old (0x2C :: t)).fate ≠ .returned true r := by
  intro h
  obtain ⟨u, rest, e, ⟨w, v, hw, hv, rfl⟩, -⟩ := C96_any_text_partial env cfg pol conv ty old _ r h
  cases w with
  | cons c w =>
    simp at e
    have := hw c (by simp)
    rw [← e.1] at this
    simp [lax] at this
  | nil =>
    rw [List.nil_append] at e
    cases hv with
    | scalar hv =>
      rcases hv with ⟨k, hk, -⟩ | ⟨f, hf, -⟩ | ⟨-, rfl | rfl⟩ | hb | ⟨⟨e, he⟩ | ⟨p, hp⟩, -⟩ | ⟨hw, -⟩
      · rcases hS _ hk with h | h <;> simp [Ty.vec] at h
      · rcases hS _ hf with h | h <;> simp [Ty.vec] at h
      · simp at e
      · simp at e
      · unfold StrText at hb
        split at hb
        · obtain ⟨_, _, _, rfl⟩ := hb
          simp at e
        · obtain ⟨_, _, rfl⟩ := hb
          simp at e
      · rcases hS _ he with h | h <;> simp [Ty.vec] at h
      · rcases hS _ hp with h | h <;> simp [Ty.vec] at h
      · exact hs hw
    | arr0 => simp at e
    | arr => simp at e
    | obj0 => simp at e
    | obj => simp at e

end Thors.Props
