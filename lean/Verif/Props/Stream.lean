import Verif.Proofs.StreamImport
import Verif.Props.Import
/-
C60: importing from a stream and from a string. C61: several documents in one stream.
-/
namespace Thors.Props
open Thors Spec StrIn

/-- A stream in front of `text`, in a good state, on a buffer that can tell its position. -/
structure Ready (i : IStr) (text : Bytes) : Prop where
  good : i.eof = false ∧ i.fail = false
  seekable : i.seekable = true
  inside : i.pos ≤ i.data.length
  text : i.data.drop i.pos = text

/-- A stream that has not failed, in front of `text`; it may have noticed that nothing follows. -/
structure Behind (i : IStr) (text : Bytes) : Prop where
  ok : i.fail = false
  good : text ≠ [] → Ready i text
  text : i.data.drop i.pos = text

theorem Ready.oks {i : IStr} {text : Bytes} (h : Ready i text) : OkS text i := ⟨⟨h.text, h.inside, h.seekable, fun _ => h.good⟩, h.good.2⟩
theorem behind_of {i : IStr} {text : Bytes} (h : OkS text i) : Behind i text :=
  ⟨h.2, fun ht => ⟨h.1.ok ht, h.1.seek, h.1.le, h.1.rest⟩, h.1.rest⟩

theorem ready_ofBytes (t : Bytes) : Ready (IStr.ofBytes t) t := ⟨⟨rfl, rfl⟩, rfl, Nat.zero_le _, by simp [IStr.ofBytes]⟩

/-- C60, one direction: what a string import accepts, an import from a stream with the same bytes accepts, with the same value; and
it leaves the stream right behind the document. For every document, everything that may follow it, every type and every
old value. Partial: the other direction needs the hypotheses of `C60_agree_in_range_partial`. -/
theorem C60_string_then_stream_partial (env : Env) (cfg : Cfg) (he : env.ints usual) (conv : Bool) (v : JTree) (w tv post : Bytes) (hw : Ws w)
    (hv : JText codePair v tv) (hp : Ends v post) (ty : Ty) (ht : ty.ints usual) (old x : Val) (i : IStr) (hi : Ready i (w ++ tv ++ post))
    (hk : cfg.strict = .Weak → v.skippable (jsem conv) = true) (h : jsonImport env cfg conv ty old (w ++ tv ++ post) = .ok x) :
    ∃ i', jsonStreamImport env cfg conv ty old i = .ok (x, i') ∧ Behind i' post := by
  have h1 := imp_of_jsonImport env cfg hw hv hp ty old x hk h
  obtain ⟨i', e, h2⟩ := jsonStreamImport_doc env cfg hw hv hp hi.oks ty old x (imp_string_stream env cfg he hv ty ht old x h1)
  exact ⟨i', e, behind_of h2⟩

/-- C60, both directions: when all numbers of the document are in the range of the number types involved, and no string has
the byte 0xFF, a string import and a stream import of the same bytes accept the same documents with the same values. -/
theorem C60_agree_in_range_partial (env : Env) (cfg : Cfg) (P : IntKind → Prop) (hP : ∀ k, P k → usual k) (F : FKind → Prop)
    (hF : ∀ f, F f → 0 < f.prec) (he : env.ints P F) (conv : Bool) (v : JTree)
    (w tv post : Bytes) (hw : Ws w) (hv : JText codePair v tv) (hp : Ends v post) (hr : Every (inRange P F) (fun k => (0xFF : Byte) ∉ k.raw) v) (ty : Ty)
    (ht : ty.ints P F) (old x : Val) (i : IStr) (hi : Ready i (w ++ tv ++ post))
    (hk : cfg.strict = .Weak → v.skippable (jsem conv) = true ∧ v.skippable (jssem conv) = true) :
    jsonImport env cfg conv ty old (w ++ tv ++ post) = .ok x ↔ ∃ i', jsonStreamImport env cfg conv ty old i = .ok (x, i') := by
  have hx : imp (jsem conv) env cfg v ty old = .ok x ↔ imp (jssem conv) env cfg v ty old = .ok x :=
    ⟨imp_mono env cfg he ⟨(string_readsLike_stream F conv).key, (string_readsLike_stream F conv).keySkips, (string_readsLike_stream F conv).null,
        fun x y k i hk => (string_readsLike_stream F conv).int x y k i (hP k hk), (string_readsLike_stream F conv).flt, (string_readsLike_stream F conv).bool, (string_readsLike_stream F conv).str,
        (string_readsLike_stream F conv).skips⟩ v v (shape_refl v tv hv fun _ _ => scalar_litOk) ty old ht x,
      imp_stream_string env cfg hP hF he hv hr ty ht old x⟩
  rw [jsonImport_post env cfg hw hv hp ty old (.inl fun h => (hk h).1), hx]
  constructor
  · intro h
    obtain ⟨i', e, -⟩ := jsonStreamImport_doc env cfg hw hv hp hi.oks ty old x h
    exact ⟨i', e⟩
  · rintro ⟨i', e⟩
    exact imp_of_streamImport env cfg hw hv hp hi.oks ty old x (fun h => (hk h).2) e

theorem trailingS_at (pol : Policy) {l : LexerS} {c : JCtl} {t : Bytes} (h : OkS t l.inp) :
    ∃ l', trailing JsonS.inOps pol (PI.init ⟨l, c⟩) = (decide (pol.validateNoTrailingData = true ∧ ¬ blank t), PI.init ⟨l', c⟩) ∧
      (¬ (pol.validateNoTrailingData = true ∧ ¬ blank t) → l'.inp.fail = false) := by
  have hok : JsonS.inOps.ok (PI.init (⟨l, c⟩ : JsonS)).inner = true := by show (!l.inp.fail) = true; rw [h.2]; rfl
  have hb : blank t ↔ spaces t = t.length :=
    ⟨spaces_blank, fun h => Classical.byContradiction fun hn => by have := spaces_not_blank hn; omega⟩
  have hr : JsonS.inOps.ok (JsonS.inOps.readChar (PI.init (⟨l, c⟩ : JsonS)).inner).2 = decide (¬ blank t) := by
    show (!(l.inp.readChar).2.fail) = _
    rw [readCharS_fail h]
    by_cases hh : blank t
    · simp [hh, hb.1 hh]
    · have : ¬ spaces t = t.length := fun e => hh (hb.2 e)
      simp [hh, this]
  unfold trailing
  by_cases hval : pol.validateNoTrailingData = true
  · rw [if_pos ⟨hval, hok⟩]
    simp only [hr]
    by_cases hb : blank t
    · rw [if_pos (by simpa using hb)]
      exact ⟨{ l with inp := (l.inp.readChar).2.clear }, by simp [hb]; rfl, fun _ => rfl⟩
    · rw [if_neg (by simpa using hb)]
      exact ⟨{ l with inp := (l.inp.readChar).2 }, by simp [hb, hval]; rfl, fun h => absurd ⟨hval, hb⟩ h⟩
  · rw [if_neg (fun h => hval h.1)]
    exact ⟨l, by simp [hval], fun _ => h.2⟩

/-- C60, the call with its error handling: whatever the flags, where the string import reads a value, `stream >> jsonImporter(value)` reports
what `string >> jsonImporter(value)` reports: the value and success, or, with the check for trailing data on and something other
than white space behind the document, the failure. -/
theorem C60_extract_agrees_partial (env : Env) (cfg : Cfg) (pol : Policy) (he : env.ints usual) (conv : Bool) (v : JTree) (w tv post : Bytes) (hw : Ws w)
    (hv : JText codePair v tv) (hp : Ends v post) (ty : Ty) (ht : ty.ints usual) (old x : Val) (i : IStr) (hi : Ready i (w ++ tv ++ post))
    (hk : cfg.strict = .Weak → v.skippable (jsem conv) = true) (h : jsonImport env cfg conv ty old (w ++ tv ++ post) = .ok x) :
    jsonStreamExtract env cfg pol conv ty old i = jsonExtract env cfg pol conv ty old (w ++ tv ++ post) := by
  have h1 := imp_of_jsonImport env cfg hw hv hp ty old x hk h
  rw [extract_doc env cfg pol hw hv hp ty old x h1]
  have h2 := deser_stream env cfg hw hv hp (stream_start (conv := conv) hi.oks) ty old
  rw [imp_string_stream env cfg he hv ty ht old x h1] at h2
  obtain ⟨⟨l, c⟩, e2, hc, hi2, hcv⟩ := h2
  simp only at hc
  subst hc
  have hend : ∀ l' : LexerS, (PI.init (⟨l', ctlDone⟩ : JsonS)).getToken JsonS.ops = .ok (.DocEnd, PI.init ⟨l', ctlEnd⟩) := fun _ => rfl
  have hstart : (PI.init (JsonS.ofStream i conv)).getToken JsonS.ops = .ok (.DocStart, PI.init ⟨(JsonS.ofStream i conv).lex, ⟨.Done, .Init, [], true⟩⟩) := rfl
  unfold jsonStreamExtract extract
  simp only [show JsonS.inOps.ops = JsonS.ops from rfl, hstart, Res.ok_bind, ne_eq, not_true_eq_false, if_false, e2]
  obtain ⟨l', e3, h3⟩ := trailingS_at (c := ctlDone) pol hi2
  simp only [e3, hend]
  by_cases hb : pol.validateNoTrailingData = true ∧ ¬ blank post
  · simp [hb]
  · have h4 := h3 hb
    simp only [hb, decide_false, if_false, Bool.false_eq_true, PI.init, show ∀ s : JsonS, JsonS.inOps.ok s = !s.lex.inp.fail from fun _ => rfl, h4, not_true_eq_false,
      Bool.not_false]

/-- The sample types use `int` only. -/
theorem samples_ints {P : IntKind → Prop} {F : FKind → Prop} (h : P ⟨32, true⟩) : Samples.env.ints P F := by
  have key : ∀ d : StructDef, (∀ key slot, d.find key = some slot → slot.ty = Samples.int32 ∨ slot.ty = .vec Samples.int32 ∨ ∃ n, slot.ty = .named n) → d.ints P F := by
    intro d hd key slot e
    rcases hd key slot e with h' | h' | ⟨n, h'⟩ <;> rw [h'] <;> first | exact h | trivial
  have one : ∀ (ms : List Member) (k : Bytes) (n : Nat) (s : StructDef.Slot), StructDef.findMember k ms n = some s → ∃ m ∈ ms, s.ty = m.ty := by
    intro ms k
    induction ms with
    | nil => intro n s h; cases h
    | cons m ms ih =>
      intro n s h
      simp only [StructDef.findMember] at h
      split at h
      · cases h; exact ⟨m, by simp, rfl⟩
      · obtain ⟨m', h1, h2⟩ := ih _ s h
        exact ⟨m', by simp [h1], h2⟩
  have base : ∀ (ps ms : List Member) (o o' : Option (Val → Bytes → Bool)) (k : Bytes) (s : StructDef.Slot), StructDef.find k (.mk [.mk [] ps o] ms o') = some s → ∃ m ∈ ps ++ ms, s.ty = m.ty := by
    intro ps ms o o' k s h
    simp only [StructDef.find, StructDef.find.findInParents] at h
    cases h1 : StructDef.findMember k ps 0 with
    | some s1 =>
      rw [h1] at h
      simp only [Option.some.injEq] at h
      subst h
      obtain ⟨m, h2, h3⟩ := one _ _ _ _ h1
      exact ⟨m, by simp [h2], h3⟩
    | none =>
      rw [h1] at h
      obtain ⟨m, h2, h3⟩ := one _ _ _ _ h
      exact ⟨m, by simp [h2], h3⟩
  have alone : ∀ (ms : List Member) (o : Option (Val → Bytes → Bool)) (k : Bytes) (s : StructDef.Slot), StructDef.find k (.mk [] ms o) = some s → ∃ m ∈ ms, s.ty = m.ty := by
    intro ms o k s h
    exact one _ _ _ _ h
  intro i
  match i with
  | 0 | 2 =>
    refine key _ fun k s e => ?_
    obtain ⟨m, h1, h2⟩ := alone _ _ _ _ e
    rw [h2]
    revert m
    simp
  | 1 | 5 =>
    refine key _ fun k s e => ?_
    obtain ⟨m, h1, h2⟩ := base _ _ _ _ _ _ e
    rw [h2]
    revert m
    simp
  | 3 => simp [Samples.env, Ty.ints, Samples.int32, h]
  | 4 => trivial
  | n + 6 =>
    refine key _ fun k s e => ?_
    obtain ⟨m, h1, h2⟩ := base _ _ _ _ _ _ e
    rw [h2]
    revert m
    simp

/-- A class with a base and a vector. -/
def streamDoc : JTree := .obj [(Samples.jstr b!"b", Samples.num 1), (Samples.jstr b!"x", Samples.num 2), (Samples.jstr b!"why", .arr [Samples.num 3])]

/-- non-vacuity: `{"b":1,"x":2,"why":[3]}` in front of ` {}`. -/
example : JText codePair streamDoc b!"{\"b\":1,\"x\":2,\"why\":[3]}" ∧ Ends streamDoc b!" {}" ∧ Samples.env.ints usual ∧ (Ty.named 1).ints usual ∧
    (∀ k, k = ⟨32, true⟩ → usual k) ∧ Samples.env.ints (fun k => k = ⟨32, true⟩) (fun f => f = f64) ∧
    Every (inRange (fun k => k = ⟨32, true⟩) (fun f => f = f64)) (fun k => (0xFF : Byte) ∉ k.raw) streamDoc ∧
    jsonImport Samples.env ⟨.Strict, []⟩ true (.named 1) (Samples.env.dflt 1) ([] ++ b!"{\"b\":1,\"x\":2,\"why\":[3]}" ++ b!" {}") =
      .ok (.obj [.obj [] [.int 1]] [.int 2, .list [.int 3]]) := by
  have hv : JText codePair streamDoc b!"{\"b\":1,\"x\":2,\"why\":[3]}" := Samples.plain_text streamDoc (by decide)
  refine ⟨hv, trivial, samples_ints ⟨by decide, by decide⟩, trivial, by rintro k rfl; exact ⟨by decide, by decide⟩, samples_ints rfl, ?_, ?_⟩
  · simp only [streamDoc, Every, Every.members, Every.elems, Samples.num, inRange, Samples.jstr]
    refine ⟨by decide, ?_, by decide, ?_, by decide, ⟨?_, trivial⟩, trivial⟩ <;>
      (refine ⟨by rintro k rfl; exact ⟨by decide, by simp⟩, ?_⟩; intro d hd f hf; cases hd; subst hf
       exact ⟨by decide +kernel, .inr (by decide +kernel)⟩)
  · rw [jsonImport_post Samples.env ⟨.Strict, []⟩ (by simp [Ws]) hv trivial _ _ (.inl (by simp))]
    rfl

/-! ### Several documents in one stream -/

/-- `stream >> jsonImporter(a) >> jsonImporter(b) >> …` for objects of the given types and old values. -/
noncomputable def importAll (env : Env) (cfg : Cfg) (conv : Bool) : List (Ty × Val) → IStr → Res (List Val × IStr)
  | [], i => .ok ([], i)
  | (ty, old) :: rest, i => do
    let (v, i) ← jsonStreamImport env cfg conv ty old i
    let (vs, i) ← importAll env cfg conv rest i
    return (v :: vs, i)

/-- `text` is a sequence of documents, one for each object, each of which a string import on its own (of the document with the white
space in front) reads into the object with the value in the list; then comes `post`. -/
inductive Documents (env : Env) (cfg : Cfg) (conv : Bool) (post : Bytes) : List (Ty × Val) → List Val → Bytes → Prop
  | nil : Documents env cfg conv post [] [] post
  | cons {ty old rest x xs v w tv text} (hw : Ws w) (hv : JText codePair v tv) (hp : Ends v text) (ht : ty.ints usual)
      (hk : cfg.strict = .Weak → v.skippable (jsem conv) = true) (h : jsonImport env cfg conv ty old (w ++ tv) = .ok x)
      (hs : Documents env cfg conv post rest xs text) : Documents env cfg conv post ((ty, old) :: rest) (x :: xs) (w ++ tv ++ text)

/-- C61: documents standing one behind the other in a stream, with or without white space between them, are imported one after the
other: every import reads its document as if it were alone, and leaves the stream in front of the next one. A number must not be
followed by something that continues it. -/
theorem C61_documents_in_sequence (env : Env) (cfg : Cfg) (he : env.ints usual) (conv : Bool) (post : Bytes) (targets : List (Ty × Val)) (xs : List Val) (text : Bytes)
    (h : Documents env cfg conv post targets xs text) (i : IStr) (hi : Ready i text) :
    ∃ i', importAll env cfg conv targets i = .ok (xs, i') ∧ Behind i' post := by
  have key : ∀ i, OkS text i → ∃ i', importAll env cfg conv targets i = .ok (xs, i') ∧ OkS post i' := by
    clear hi i
    induction h with
    | nil => intro i hi; exact ⟨i, rfl, hi⟩
    | @cons ty old rest x xs v w tv text hw hv hp ht hk h hs ih =>
      intro i hi
      have h1 : imp (jsem conv) env cfg v ty old = .ok x := by
        refine imp_of_jsonImport env cfg (post := []) hw hv ?_ ty old x hk (by simpa using h)
        cases v with
        | scalar x => cases x <;> trivial
        | _ => trivial
      obtain ⟨i1, e1, h2⟩ := jsonStreamImport_doc env cfg hw hv hp hi ty old x (imp_string_stream env cfg he hv ty ht old x h1)
      obtain ⟨i2, e2, h3⟩ := ih i1 h2
      exact ⟨i2, by simp only [importAll, e1, e2, Res.ok_bind]; rfl, h3⟩
  obtain ⟨i', e, h'⟩ := key i hi.oks
  exact ⟨i', e, behind_of h'⟩

/-- non-vacuity: ` 7[true] {}` read into an `int`, a vector and a map. -/
example (env : Env) : Documents env ⟨.Strict, []⟩ true b!"\n" [(Samples.int32, .int 0), (.vec .bool, .list []), (.smap Samples.int32, .dict [])]
    [.int 7, .list [.bool true], .dict []] b!" 7[true] {}\n" := by
  refine .cons (v := Samples.num 7) (w := b!" ") (tv := b!"7") (text := b!"[true] {}\n") (by simp [Ws]) (Samples.plain_text _ (by decide)) (by decide : valueEnds b!"[true] {}\n")
    ⟨by decide, by decide⟩ (by simp) ?_ ?_
  · have := jsonImport_post env ⟨.Strict, []⟩ (conv := true) (v := Samples.num 7) (w := b!" ") (tv := b!"7") (post := []) (by simp [Ws]) (Samples.plain_text _ (by decide)) trivial
      Samples.int32 (.int 0) (.inl (by simp))
    rw [List.append_nil] at this
    rw [this]
    rfl
  refine .cons (v := .arr [.scalar (.bool true)]) (w := []) (tv := b!"[true]") (text := b!" {}\n") (by simp [Ws]) (Samples.plain_text _ (by decide)) trivial trivial (by simp) ?_ ?_
  · rw [Samples.import_plain (.arr [.scalar (.bool true)]) (by decide) (t := [] ++ b!"[true]") rfl _ _ _ _ _ (by decide)]
    rfl
  refine .cons (v := .obj []) (w := b!" ") (tv := b!"{}") (text := b!"\n") (by simp [Ws]) (Samples.plain_text _ (by decide)) trivial ⟨by decide, by decide⟩ (by simp) ?_ .nil
  have := jsonImport_post env ⟨.Strict, []⟩ (conv := true) (v := .obj []) (w := b!" ") (tv := b!"{}") (post := []) (by simp [Ws]) (Samples.plain_text _ (by decide)) trivial
    (.smap Samples.int32) (.dict []) (.inl (by simp))
  rw [List.append_nil] at this
  rw [this]
  rfl

/-! ### Where streams differ from strings -/

/-- C60 is false for integers out of range: `40000` read into a `short` from a stream gives -25536, `70000` gives -1, and `-5` read into an
`unsigned int` gives 4294967291, all reported as success; none of them is read from a string. -/
theorem C60_false (env : Env) (cfg : Cfg) (conv : Bool) (old : Val) :
    (∃ i, jsonStreamImport env cfg conv (.int ⟨16, true⟩) old (IStr.ofBytes b!"40000") = .ok (.int (-25536), i)) ∧
    (∃ i, jsonStreamImport env cfg conv (.int ⟨16, true⟩) old (IStr.ofBytes b!"70000") = .ok (.int (-1), i)) ∧
    (∃ i, jsonStreamImport env cfg conv (.int ⟨32, false⟩) old (IStr.ofBytes b!"-5") = .ok (.int 4294967291, i)) ∧
    (∀ x, jsonImport env cfg conv (.int ⟨16, true⟩) old b!"40000" ≠ .ok x) ∧ (∀ x, jsonImport env cfg conv (.int ⟨16, true⟩) old b!"70000" ≠ .ok x) ∧
    jsonImport env cfg conv (.int ⟨32, false⟩) old b!"-5" = throwStd := by
  have l1 : IntLit b!"40000" 40000 := .pos (dec_iff.mpr ⟨by decide, by decide, by decide⟩)
  have l2 : IntLit b!"70000" 70000 := .pos (dec_iff.mpr ⟨by decide, by decide, by decide⟩)
  have l3 : IntLit b!"-5" (-5) := .neg (t := b!"5") (n := 5) (dec_iff.mpr ⟨by decide, by decide, by decide⟩)
  have str : ∀ {t : Bytes} {i : Int}, IntLit t i → ¬ litLeadingZero t → ∀ k, jsonImport env cfg conv (.int k) old t = imp (jsem conv) env cfg (.scalar (.int t i)) (.int k) old := by
    intro t i h hz k
    have := jsonImport_post env cfg (conv := conv) (v := .scalar (.int t i)) (w := []) (tv := t) (post := []) (by simp [Ws]) ⟨rfl, h, hz⟩ trivial (.int k) old
      (.inl fun _ => rfl)
    simpa using this
  have stm : ∀ {t : Bytes} {i : Int}, IntLit t i → ¬ litLeadingZero t → ∀ k, ∃ i', jsonStreamImport env cfg conv (.int k) old (IStr.ofBytes t) = .ok (.int (streamInt k t i), i') := by
    intro t i h hz k
    obtain ⟨i', e, -⟩ := jsonStreamImport_doc env cfg (conv := conv) (v := .scalar (.int t i)) (w := []) (tv := t) (post := []) (by simp [Ws]) ⟨rfl, h, hz⟩ trivial
      (by simpa using (ready_ofBytes t).oks) (.int k) old (.int (streamInt k t i)) rfl
    exact ⟨i', e⟩
  refine ⟨stm l1 (by simp [litLeadingZero, leadingZero]) _, stm l2 (by simp [litLeadingZero, leadingZero]) _, stm l3 (by simp [litLeadingZero, leadingZero]) _, ?_, ?_, ?_⟩
  · intro x h; rw [str l1 (by simp [litLeadingZero, leadingZero])] at h; cases h
  · intro x h; rw [str l2 (by simp [litLeadingZero, leadingZero])] at h; cases h
  · rw [str l3 (by simp [litLeadingZero, leadingZero])]; rfl

/-! #### Streams that cannot tell their position -/

theorem readChar_seek (i : IStr) : (i.readChar).2.seekable = i.seekable := by
  unfold IStr.readChar
  simp only
  split
  · rfl
  · split <;> rfl

theorem unget_seek (i : IStr) : i.unget.seekable = i.seekable := by
  unfold IStr.unget
  split
  · rfl
  · split <;> rfl

theorem yylex_seek (l : LexerS) : l.yylex.2.inp.seekable = l.inp.seekable := by
  have h := readChar_seek l.inp
  unfold LexerS.yylex LexerS.peekNextNonSpace
  generalize l.inp.readChar = r at h
  obtain ⟨c, i⟩ := r
  cases c with
  | none => exact h
  | some c =>
    simp only at h ⊢
    split
    · exact h
    · simp only [unget_seek]; exact h

theorem lexStep_seek : ∀ (n : Nat) (p : JsonS) (t : Tok) (p' : JsonS), p.lexStep n = .ok (t, p') → p'.lex.inp.seekable = p.lex.inp.seekable
  | 0, p, t, p', h => by cases h
  | n + 1, p, t, p', h => by
    have hy := yylex_seek p.lex
    unfold JsonS.lexStep at h
    simp only at h
    obtain ⟨⟨tt, c⟩, h1, h2⟩ := Res.bind_eq_ok.1 h
    simp only at h2
    cases tt with
    | some t => cases h2; exact hy
    | none => exact (lexStep_seek n _ t p' h2).trans hy

theorem tellg_unseekable {i : IStr} (h : i.seekable = false) : (i.tellg).1 = -1 ∧ (i.tellg).2.seekable = false := by
  unfold IStr.tellg
  split
  · exact ⟨rfl, h⟩
  · exact ⟨rfl, h⟩

theorem readUnsigned_unseekable {i : IStr} (h : i.seekable = false) (b : Nat) : (i.readUnsigned b).1.1 = false := by
  have h1 := tellg_unseekable h
  unfold IStr.readUnsigned
  simp only [h1.1]
  rw [(tellg_unseekable (i := { (i.tellg).2 with pos := (i.tellg).2.pos + _ }) h1.2).1]
  rfl

theorem get_seek (i : IStr) : i.get.2.seekable = i.seekable := by
  unfold IStr.get; split
  · rfl
  · split <;> rfl

theorem peek_seek (i : IStr) : i.peek.2.seekable = i.seekable := by
  unfold IStr.peek; split
  · rfl
  · split <;> rfl

theorem scanInt_unseekable {l : LexerS} (h : l.inp.seekable = false) (k : IntKind) : l.scanInt k = throwStd := by
  have hz : l.inp.checkZero = throwStd ∨ ∃ i, l.inp.checkZero = .ok i ∧ i.seekable = false := by
    unfold IStr.checkZero
    simp only
    split
    · split
      · exact .inl rfl
      · exact .inr ⟨_, rfl, by rw [unget_seek, peek_seek, get_seek, peek_seek, h]⟩
    · exact .inr ⟨_, rfl, by rw [peek_seek, h]⟩
  unfold LexerS.scanInt IStr.readIntValue
  rcases hz with e | ⟨i, e, hs⟩
  · rw [e]; rfl
  · rw [e]
    have hr : (i.readInt k).1.1 = false := by
      unfold IStr.readInt
      simp only
      split
      · split
        · exact readUnsigned_unseekable (by rw [get_seek, peek_seek, hs]) _
        · exact readUnsigned_unseekable (by rw [peek_seek, hs]) _
      · exact readUnsigned_unseekable hs _
    simp only [Res.ok_bind, hr, IStr.validateResult, Bool.false_and]
    rfl

/-- C60 is false for streams whose buffer cannot tell its position (pipes, sockets, terminals): no text at all can be imported into an
integer. -/
theorem C60_false_unseekable (env : Env) (cfg : Cfg) (conv : Bool) (k : IntKind) (old : Val) (t : Bytes) :
    ∀ r, jsonStreamImport env cfg conv (.int k) old (IStr.ofBytes t false) ≠ .ok r := by
  intro r h
  unfold jsonStreamImport importValue at h
  have h0 : (PI.init (JsonS.ofStream (IStr.ofBytes t false) conv)).getToken JsonS.ops =
    .ok (.DocStart, PI.init ⟨(JsonS.ofStream (IStr.ofBytes t false) conv).lex, ⟨.Done, .Init, [], true⟩⟩) := rfl
  rw [h0] at h
  simp only [Res.ok_bind, ne_eq, not_true_eq_false, if_false] at h
  obtain ⟨a, h1, -⟩ := Res.bind_eq_ok.1 h
  obtain ⟨b, h2, -⟩ := Res.bind_eq_ok.1 h1
  rw [deser] at h2
  obtain ⟨⟨tok, p⟩, h3, h4⟩ := Res.bind_eq_ok.1 h2
  have h3' : (do
      let (t, s) ← JsonS.lexStep 2 ⟨(JsonS.ofStream (IStr.ofBytes t false) conv).lex, ⟨.Done, .Init, [], true⟩⟩
      return (t, (PI.init s : PI JsonS)) : Res (Tok × PI JsonS)) = .ok (tok, p) := h3
  obtain ⟨⟨t', s'⟩, h5, h6⟩ := Res.bind_eq_ok.1 h3'
  have hs := lexStep_seek 2 _ _ _ h5
  simp only [Res.pure_eq, Res.ok.injEq, Prod.mk.injEq] at h6
  obtain ⟨rfl, rfl⟩ := h6
  simp only at h4
  split at h4
  · cases h4
  · obtain ⟨⟨i, p'⟩, h7, -⟩ := Res.bind_eq_ok.1 h4
    have : JsonS.ops.getInt k s' = throwStd := by
      show (do let (v, l) ← s'.lex.scanInt k; return (v, ({ s' with lex := l } : JsonS)) : Res (Int × JsonS)) = _
      rw [scanInt_unseekable (hs.trans rfl)]
      rfl
    simp only [PI.init] at h7
    rw [this] at h7
    cases h7

/-- The same text on a string, or on a stream that can tell its position, is read: `7` into an `int`. -/
example (env : Env) (cfg : Cfg) (old : Val) : (∃ i, jsonStreamImport env cfg true Samples.int32 old (IStr.ofBytes b!"7") = .ok (.int 7, i)) ∧
    jsonImport env cfg true Samples.int32 old b!"7" = .ok (.int 7) := by
  constructor
  · obtain ⟨i', e, -⟩ := jsonStreamImport_doc env cfg (conv := true) (v := Samples.num 7) (w := []) (tv := b!"7") (post := []) (by simp [Ws])
      (Samples.plain_text _ (by decide)) trivial (ready_ofBytes b!"7").oks Samples.int32 old (.int 7) rfl
    exact ⟨i', e⟩
  · rw [Samples.import_plain (Samples.num 7) (by decide) (t := b!"7") rfl _ _ _ _ _ (by decide)]
    rfl

/-! #### A truncated string -/

/-- C60 is false for a string that is cut off right behind a backslash, after an escaped quote (the four bytes `"\"\`): from a stream the
import does not return. However many rounds the loop over the pieces between quotes has made, it goes on (and the string it builds
has grown by two bytes with every round). From a string the same bytes are refused. -/
theorem C60_false_hang (l : LexerS) (hl : l.inp = IStr.ofBytes [0x22, 0x5C, 0x22, 0x5C]) :
    (∃ i value, l.inp.get = (0x22, i) ∧ (i.getline 0x22).1 = some value ∧ value.length > 0 ∧ checkEscape value = true ∧
      ∀ rounds, LexerS.readMore rounds (i.getline 0x22).2.2 [] value = .ub) ∧
    ∀ l' : Lexer, l'.inp = StrIn.ofBytes [0x22, 0x5C, 0x22, 0x5C] → l'.getStringInto = throwStd := by
  have stuck : ∀ rounds (i : IStr) (value : Bytes), i.good = false → LexerS.readMore rounds i [0x5C] value = .ub := by
    intro n
    induction n with
    | zero => intro i value _; rfl
    | succ n ih =>
      intro i value hi
      unfold LexerS.readMore IStr.getline
      rw [if_pos hi]
      simp only [Option.getD_none]
      rw [if_pos (by decide)]
      exact ih _ _ (by simp [IStr.good])
  constructor
  · refine ⟨{ IStr.ofBytes [0x22, 0x5C, 0x22, 0x5C] with pos := 1 }, [0x5C], by rw [hl]; decide, by decide, by decide, by decide, ?_⟩
    intro n
    cases n with
    | zero => rfl
    | succ n =>
      have e : (({ IStr.ofBytes [0x22, 0x5C, 0x22, 0x5C] with pos := 1 } : IStr).getline 0x22).2.2.getline 0x22 =
        (some [0x5C], true, ⟨[0x22, 0x5C, 0x22, 0x5C], 4, true, false, true⟩) := by decide
      unfold LexerS.readMore
      rw [e]
      simp only [Option.getD_some]
      rw [if_pos (by decide)]
      exact stuck n _ _ rfl
  · intro l' h
    unfold Lexer.getStringInto
    rw [h]
    cases l'.convertBackSlash <;> rfl

end Thors.Props
