import Verif.Props.StreamNumbers
/-
C129: what a stream takes for a floating point number.
-/
namespace Thors.Props
open Thors Spec StrIn

/-- The text begins with a number as JSON writes it, and the number does not go on. -/
def BeginsWithNumber (t : Bytes) : Prop :=
  ∃ w tv x rest, t = w ++ tv ++ rest ∧ (∀ c ∈ w, Blank c) ∧ JsonNumber tv x ∧ numberEnds rest

/-- Behind white space the text begins with a digit, a sign or a point; a first digit `0` has none of `1` to `9` behind it. -/
def TakenForNumber (t : Bytes) : Prop :=
  ∃ w c rest, t = w ++ c :: rest ∧ (∀ c ∈ w, Blank c) ∧ (Digit128 c ∨ c = 0x2B ∨ c = 0x2D ∨ c = 0x2E) ∧
    (c = 0x30 → ∀ d r, rest = d :: r → ¬ Digit128 d ∨ d = 0x30)

/-- The import of a floating point number, once the parser has found a value. -/
theorem import_flt_value (env : Env) (cfg : Cfg) (conv : Bool) (f : FKind) (old : Val) (t : Bytes) {l : LexerS}
    (h : (PI.init (⟨(JsonS.ofStream (IStr.ofBytes t) conv).lex, ⟨.Done, .Init, [], true⟩⟩ : JsonS)).getToken JsonS.ops = .ok (.Value, PI.init ⟨l, ⟨.Done, .Done, [], true⟩⟩)) :
    jsonStreamImport env cfg conv (.flt f) old (IStr.ofBytes t) = (do let (v, l) ← l.scanFlt f; return (.flt v, l.inp)) := by
  unfold jsonStreamImport importValue
  rw [show (PI.init (JsonS.ofStream (IStr.ofBytes t) conv)).getToken JsonS.ops =
    .ok (.DocStart, PI.init ⟨(JsonS.ofStream (IStr.ofBytes t) conv).lex, ⟨.Done, .Init, [], true⟩⟩) from rfl]
  simp only [Res.ok_bind, ne_eq, not_true_eq_false, if_false]
  rw [deser, h]
  simp only [Res.ok_bind, ne_eq, not_true_eq_false, if_false]
  rw [show JsonS.ops.getFlt f (PI.init (⟨l, ⟨.Done, .Done, [], true⟩⟩ : JsonS)).inner =
    (do let (v, l) ← l.scanFlt f; return (v, (⟨l, ⟨.Done, .Done, [], true⟩⟩ : JsonS)) : Res (Flt × JsonS)) from rfl]
  cases l.scanFlt f with
  | ok x => rfl
  | _ => rfl

theorem import_flt_other (env : Env) (cfg : Cfg) (conv : Bool) (f : FKind) (old : Val) (t : Bytes) {tok : Tok} {p : PI JsonS} (hne : tok ≠ .Value)
    (h : (PI.init (⟨(JsonS.ofStream (IStr.ofBytes t) conv).lex, ⟨.Done, .Init, [], true⟩⟩ : JsonS)).getToken JsonS.ops = .ok (tok, p)) :
    jsonStreamImport env cfg conv (.flt f) old (IStr.ofBytes t) = throwStd := by
  unfold jsonStreamImport importValue
  rw [show (PI.init (JsonS.ofStream (IStr.ofBytes t) conv)).getToken JsonS.ops =
    .ok (.DocStart, PI.init ⟨(JsonS.ofStream (IStr.ofBytes t) conv).lex, ⟨.Done, .Init, [], true⟩⟩) from rfl]
  simp only [Res.ok_bind, ne_eq, not_true_eq_false, if_false]
  rw [deser, h]
  simp only [Res.ok_bind]
  rw [if_pos hne]
  rfl

/-- When `num_get` reads anything. -/
theorem numGetFlt_len (f : FKind) (c : Byte) (t : Bytes) :
    (IStr.numGetFlt f (c :: t)).1 ≠ 0 ↔ isDigit c = true ∨ c = 0x2B ∨ c = 0x2D ∨ c = 0x2E := by
  unfold IStr.numGetFlt
  by_cases h1 : c = 0x2D
  · subst h1; simp
  · by_cases h2 : c = 0x2B
    · subst h2; simp
    · simp only [List.head?_cons, Option.some.injEq, h1, h2, decide_false, Bool.or_self, Bool.false_eq_true, if_false, Nat.zero_add, false_or]
      rw [IStr.extractFlt.eq_def]
      dsimp only
      cases hd : isDigit c with
      | true => simp
      | false =>
        by_cases h3 : c = 0x2E
        · subst h3; simp
        · simp [h3]

theorem readFlt_at {i : IStr} {c : Byte} {t : Bytes} (f : FKind) (h : AtS (c :: t) i) :
    (i.readFlt f).1.1 = decide ((IStr.numGetFlt f (c :: t)).1 ≠ 0) := by
  obtain ⟨h1, h2⟩ := h.ok (by simp)
  have hr := h.rest
  unfold IStr.rest at hr
  unfold IStr.readFlt
  rw [tellg_ok h]
  simp only [hr]
  rw [tellg_adv h1 h2 h.seek]
  generalize IStr.numGetFlt f (c :: t) = r
  by_cases hz : r.1 = 0
  · simp [hz]
  · simp [hz]; omega

theorem scanFlt_failed {l : LexerS} (h : l.inp.good = false) (f : FKind) : l.scanFlt f = throwStd := by
  have hp : l.inp.peek = (EOFv, { l.inp with fail := true }) := by unfold IStr.peek; rw [if_pos h]
  have hg : ∀ i : IStr, i.fail = true → i.tellg = (-1, i) := by
    intro i hi
    obtain ⟨d, p, e, f, s⟩ := i
    simp only at hi
    subst hi
    unfold IStr.tellg; rw [if_pos (by simp [IStr.good])]
  unfold LexerS.scanFlt IStr.readFltValue IStr.checkZero
  rw [hp]
  simp only [show (EOFv = 0x30) = False from by simp [EOFv], if_false, Res.ok_bind]
  have hr : (({ l.inp with fail := true } : IStr).readFlt f).1.1 = false := by
    unfold IStr.readFlt
    rw [hg { l.inp with fail := true } rfl]
    simp only
    rw [hg ⟨l.inp.data, l.inp.pos + _, l.inp.eof, true, l.inp.seekable⟩ rfl]
    rfl
  simp only [Res.pure_eq, Res.ok_bind, hr]
  rfl

theorem scanFlt_iff (l : LexerS) (f : FKind) {c : Byte} {t : Bytes} (hr : AtS (c :: t) l.inp) :
    (∃ x, l.scanFlt f = .ok x) ↔ (c = 0x30 → ∀ d r, t = d :: r → isDigit d = false ∨ d = 0x30) ∧ (isDigit c = true ∨ c = 0x2B ∨ c = 0x2D ∨ c = 0x2E) := by
  by_cases hz : c = 0x30 → ∀ d r, t = d :: r → isDigit d = false ∨ d = 0x30
  · have hzero : l.inp.checkZero = .ok l.inp := checkZeroS_at hr hz
    have h1 := readFlt_at f hr
    have hs : l.scanFlt f = if ¬ (l.inp.readFlt f).1.1 = true then throwStd else .ok ((l.inp.readFlt f).1.2, { l with inp := (l.inp.readFlt f).2 }) := by
      unfold LexerS.scanFlt IStr.readFltValue
      rw [hzero]
      rfl
    rw [hs, h1, ← numGetFlt_len f c t]
    by_cases h0 : (IStr.numGetFlt f (c :: t)).1 = 0
    · simp [h0, throwStd]
    · simp only [ne_eq, h0, not_false_eq_true, decide_true, not_true_eq_false, if_false, and_true]
      exact ⟨fun _ => hz, fun _ => ⟨_, rfl⟩⟩
  · have : l.scanFlt f = throwStd := by
      have : ∃ d r, c :: t = 0x30 :: d :: r ∧ isDigit d = true ∧ d ≠ 0x30 := by
        apply Classical.byContradiction
        intro hn
        apply hz
        rintro rfl d r rfl
        cases hd : isDigit d with
        | false => exact .inl rfl
        | true =>
          right
          apply Classical.byContradiction
          intro hne
          exact hn ⟨d, r, rfl, hd, hne⟩
      obtain ⟨d, r, e, hd, hne⟩ := this
      rw [e] at hr
      unfold LexerS.scanFlt IStr.readFltValue
      rw [checkZero_throws hr hd hne]
      rfl
    rw [this]
    constructor
    · rintro ⟨x, hx⟩; cases hx
    · rintro ⟨h, -⟩; exact absurd h hz

/-- C129, what is taken. For every floating point type, every old value and every text: the import from a (seekable) stream succeeds
exactly if, behind white space, the text begins with a digit, a sign or a point (and not with a zero that has one of `1` to `9` behind it). What
follows does not matter, see `C129_false`. -/
theorem C129_exactly_partial (env : Env) (cfg : Cfg) (conv : Bool) (f : FKind) (old : Val) (t : Bytes) :
    (∃ r, jsonStreamImport env cfg conv (.flt f) old (IStr.ofBytes t) = .ok r) ↔ TakenForNumber t := by
  obtain ⟨w, u, rfl, hw, hu⟩ := blank_split t
  have start : ∀ {c : Byte} {r w' rest : Bytes} {c' : Byte}, w ++ u = w' ++ c' :: rest → (∀ c ∈ w', Blank c) →
      (Digit128 c' ∨ c' = 0x2B ∨ c' = 0x2D ∨ c' = 0x2E) → u = c' :: rest := by
    intro c r w' rest c' e hb hc
    have hs : isSpace c' = false := by
      rcases hc with hd | rfl | rfl | rfl
      · simp only [Digit128, UInt8.le_iff_toNat_le] at hd
        have e1 : (0x30 : Byte).toNat = 48 := rfl
        have e2 : (0x39 : Byte).toNat = 57 := rfl
        rw [e1, e2] at hd
        simp only [isSpace, decide_eq_false_iff_not, not_or]
        refine ⟨?_, ?_, ?_, ?_, ?_, ?_⟩ <;> (rintro rfl; revert hd; decide)
      all_goals decide
    have key : ∀ (w w' : Bytes), (∀ c ∈ w, isSpace c = true) → (∀ c ∈ w', isSpace c = true) → w ++ u = w' ++ (c' :: rest) → u = c' :: rest := by
      intro w
      induction w with
      | nil =>
        intro w' _ h2 e
        cases w' with
        | nil => exact e
        | cons x w' =>
          have := hu x _ e
          rw [h2 x (by simp)] at this
          cases this
      | cons x w ih =>
        intro w' h1 h2 e
        cases w' with
        | nil =>
          have : x = c' := (List.cons.inj e).1
          rw [← this, h1 x (by simp)] at hs
          cases hs
        | cons y w' => exact ih w' (fun c hc => h1 c (by simp [hc])) (fun c hc => h2 c (by simp [hc])) (List.cons.inj e).2
    exact key w w' hw (fun c hc => (blank_iff c).mp (hb c hc)) e
  cases u with
  | nil =>
    constructor
    · rintro ⟨r, h⟩
      exfalso
      have hs : spaces w = w.length := by
        have := spaces_append (w := w) (t := []) hw
        simpa [spaces] using this
      have hrc : (IStr.ofBytes (w ++ [])).readChar = (none, ⟨w ++ [], (w ++ []).length, true, true, true⟩) := by
        unfold IStr.readChar
        rw [if_neg (by simp [IStr.good, IStr.ofBytes])]
        simp only [IStr.ofBytes, List.drop_zero, List.append_nil, hs]
        rw [if_neg (by omega)]
      have hy : (JsonS.ofStream (IStr.ofBytes (w ++ [])) conv).lex.yylex =
          (.number, ⟨⟨w ++ [], (w ++ []).length, true, true, true⟩, [], some .number, false, false, conv⟩) := by
        unfold LexerS.yylex LexerS.peekNextNonSpace
        rw [show (JsonS.ofStream (IStr.ofBytes (w ++ [])) conv).lex.inp = IStr.ofBytes (w ++ []) from rfl, hrc]
        rfl
      have ht := first_token conv (w ++ [])
      rw [lexStep_first _ _ _ hy] at ht
      rw [import_flt_value env cfg conv f old _ ht, scanFlt_failed rfl] at h
      cases h
    · rintro ⟨w', c', rest, e, hb, hc, -⟩
      have := start (c := 0) (r := []) e hb hc
      cases this
  | cons c r =>
    have hc := hu c r rfl
    have hat : AtS (w ++ c :: r) (IStr.ofBytes (w ++ c :: r)) := (ready_ofBytes _).oks.1
    obtain ⟨i', e1, h1, h2⟩ := ats_readChar hat hw hc
    cases hp : isPunct c with
    | true =>
      constructor
      · rintro ⟨x, h⟩
        exfalso
        obtain ⟨tok, ctl, hf, hne⟩ := classify_punct hp true
        have hy : ∃ l', (JsonS.ofStream (IStr.ofBytes (w ++ c :: r)) conv).lex.yylex = (Lexer.classify c, l') := by
          unfold LexerS.yylex LexerS.peekNextNonSpace
          rw [show (JsonS.ofStream (IStr.ofBytes (w ++ c :: r)) conv).lex.inp = IStr.ofBytes (w ++ c :: r) from rfl, e1]
          simp only [hp, if_true]
          exact ⟨_, rfl⟩
        obtain ⟨l', hy⟩ := hy
        have ht := first_token conv (w ++ c :: r)
        rw [lexStep_first _ _ _ hy, hf] at ht
        rw [import_flt_other env cfg conv f old _ hne ht] at h
        cases h
      · rintro ⟨w', c', rest, e, hb, hc', -⟩
        have := start (c := 0) (r := []) e hb hc'
        obtain ⟨rfl, -⟩ := List.cons.inj this
        exfalso
        simp only [isPunct, decide_eq_true_eq] at hp
        rcases hp with rfl | rfl | rfl | rfl | rfl | rfl <;> simp [Digit128] at hc'
    | false =>
      have hy : ∃ l', (JsonS.ofStream (IStr.ofBytes (w ++ c :: r)) conv).lex.yylex = (Lexer.classify c, l') ∧ l'.inp = i'.unget := by
        unfold LexerS.yylex LexerS.peekNextNonSpace
        rw [show (JsonS.ofStream (IStr.ofBytes (w ++ c :: r)) conv).lex.inp = IStr.ofBytes (w ++ c :: r) from rfl, e1]
        simp only [hp, Bool.false_eq_true, if_false]
        exact ⟨_, rfl, rfl⟩
      obtain ⟨l', hy, hl⟩ := hy
      have ht := first_token conv (w ++ c :: r)
      rw [lexStep_first _ _ _ hy, classify_plain hp] at ht
      rw [import_flt_value env cfg conv f old _ ht]
      have hs := scanFlt_iff l' f (c := c) (t := r) (by rw [hl]; exact h2.1)
      have e : (∃ x, (do let (v, l) ← l'.scanFlt f; return (.flt v, l.inp) : Res (Val × IStr)) = .ok x) ↔ ∃ x, l'.scanFlt f = .ok x := by
        cases l'.scanFlt f with
        | ok x => exact ⟨fun _ => ⟨_, rfl⟩, fun _ => ⟨_, rfl⟩⟩
        | _ => constructor <;> (rintro ⟨x, h⟩; cases h)
      rw [e, hs]
      have hdig : ∀ d : Byte, (¬ Digit128 d ∨ d = 0x30) ↔ (isDigit d = false ∨ d = 0x30) := by
        intro d
        rw [digit128_iff]
        simp
      constructor
      · rintro ⟨a1, a2⟩
        refine ⟨w, c, r, rfl, fun c hc => (blank_iff c).mpr (hw c hc), ?_, fun h d r' e => (hdig d).mpr (a1 h d r' e)⟩
        rw [digit128_iff]
        exact a2
      · rintro ⟨w', c', rest, e, hb, hc', hz⟩
        have := start (c := 0) (r := []) e hb hc'
        obtain ⟨rfl, rfl⟩ := List.cons.inj this
        rw [digit128_iff] at hc'
        exact ⟨fun h d r' e => (hdig d).mp (hz h d r' e), hc'⟩

/-- `-1.5e3` behind a line break, and what is no number. -/
example (env : Env) (cfg : Cfg) (conv : Bool) (old : Val) : (∃ r, jsonStreamImport env cfg conv (.flt f64) old (IStr.ofBytes b!"\n-1.5e3]") = .ok r) ∧
    ∀ r, jsonStreamImport env cfg conv (.flt f64) old (IStr.ofBytes b!"e5") ≠ .ok r := by
  constructor
  · exact (C129_exactly_partial env cfg conv f64 old _).mpr ⟨b!"\n", 0x2D, b!"1.5e3]", rfl, by simp [Blank], .inr (.inr (.inl rfl)), fun h => absurd h (by decide)⟩
  · intro r h
    obtain ⟨w, c, rest, e, hb, hc, -⟩ := (C129_exactly_partial env cfg conv f64 old _).mp ⟨r, h⟩
    cases w with
    | nil => cases e; simp [Digit128] at hc
    | cons x w =>
      have hx := hb x (by simp)
      have e1 := (List.cons.inj e).1
      subst e1
      simp [Blank] at hx

/-- C129 is false. From a stream the texts `-`, `+`, `.` and `1e` are read as zero, into any floating point type. None of them begins
with a number. -/
theorem C129_false (env : Env) (cfg : Cfg) (conv : Bool) (f : FKind) (old : Val) :
    ∀ t ∈ [b!"-", b!"+", b!".", b!"1e"], ¬ BeginsWithNumber t ∧
      ∃ i, jsonStreamImport env cfg conv (.flt f) old (IStr.ofBytes t) = .ok (.flt (.fin false 0 0), i) := by
  have stm : ∀ (t : Bytes) (l : LexerS),
      (PI.init (⟨(JsonS.ofStream (IStr.ofBytes t) conv).lex, ⟨.Done, .Init, [], true⟩⟩ : JsonS)).getToken JsonS.ops = .ok (.Value, PI.init ⟨l, ⟨.Done, .Done, [], true⟩⟩) →
      (∃ l', l.scanFlt f = .ok (.fin false 0 0, l')) → ∃ i, jsonStreamImport env cfg conv (.flt f) old (IStr.ofBytes t) = .ok (.flt (.fin false 0 0), i) := by
    rintro t l h ⟨l', h'⟩
    rw [import_flt_value env cfg conv f old t h, h']
    exact ⟨_, rfl⟩
  have shape : ∀ t : Bytes, BeginsWithNumber t → (∀ c r, t = c :: r → ¬ Blank c) → ∃ s d ip fp ep e len fr rest, t = s ++ (d :: (ip ++ (fp ++ (ep ++ rest)))) ∧
      (s = [] ∨ s = [0x2D]) ∧ Digit128 d ∧ (∀ c ∈ ip, Digit128 c) ∧ FracVal fp len fr ∧ ExpoVal ep e ∧ numberEnds rest := by
    rintro t ⟨w, tv, x, rest, e, hb, ⟨s, ip, fp, ep, i, len, fr, ee, h1, h2, -, h3, h4, rfl, -⟩, he⟩ hn
    obtain ⟨a1, a2, -⟩ := dec_iff.mp h2
    cases w with
    | cons y w => exact absurd (hb y (by simp)) (hn y _ e)
    | nil =>
      cases ip with
      | nil => exact absurd rfl a1
      | cons d ip =>
        refine ⟨s, d, ip, fp, ep, ee, len, fr, rest, by rw [e]; simp, ?_, (digit128_iff d).mpr (a2 d (by simp)), fun c hc => (digit128_iff c).mpr (a2 c (by simp [hc])), h3, h4, he⟩
        unfold SignText at h1
        cases hx : x.neg <;> simp [hx] at h1 <;> simp [h1]
  intro t ht
  simp only [List.mem_cons, List.not_mem_nil, or_false] at ht
  rcases ht with rfl | rfl | rfl | rfl
  · refine ⟨fun h => ?_, stm _ _ rfl ⟨_, rfl⟩⟩
    obtain ⟨s, d, ip, fp, ep, e, len, fr, rest, e, hs, hd, -⟩ := shape _ h (by rintro c r ⟨rfl, -⟩; simp [Blank])
    rcases hs with rfl | rfl
    · have e1 := (List.cons.inj e).1
      subst e1
      simp [Digit128] at hd
    · have e1 := (List.cons.inj e).2
      cases e1
  · refine ⟨fun h => ?_, stm _ _ rfl ⟨_, rfl⟩⟩
    obtain ⟨s, d, ip, fp, ep, e, len, fr, rest, e, hs, hd, -⟩ := shape _ h (by rintro c r ⟨rfl, -⟩; simp [Blank])
    rcases hs with rfl | rfl
    · have e1 := (List.cons.inj e).1
      subst e1
      simp [Digit128] at hd
    · have e1 := (List.cons.inj e).1
      cases e1
  · refine ⟨fun h => ?_, stm _ _ rfl ⟨_, rfl⟩⟩
    obtain ⟨s, d, ip, fp, ep, e, len, fr, rest, e, hs, hd, -⟩ := shape _ h (by rintro c r ⟨rfl, -⟩; simp [Blank])
    rcases hs with rfl | rfl
    · have e1 := (List.cons.inj e).1
      subst e1
      simp [Digit128] at hd
    · have e1 := (List.cons.inj e).1
      cases e1
  · refine ⟨fun h => ?_, stm _ _ rfl ⟨_, rfl⟩⟩
    obtain ⟨s, d, ip, fp, ep, ee, len, fr, rest, e, hs, hd, hip, hf, he, hr⟩ := shape _ h (by rintro c r ⟨rfl, -⟩; simp [Blank])
    rcases hs with rfl | rfl
    · have e1 : b!"e" = ip ++ (fp ++ (ep ++ rest)) := (List.cons.inj e).2
      cases ip with
      | cons y ip =>
        have hy := hip y (by simp)
        have e2 := (List.cons.inj e1).1
        subst e2
        simp [Digit128] at hy
      | nil =>
        rcases hf with ⟨rfl, -⟩ | ⟨ds, rfl, -⟩
        · rcases he with ⟨rfl, -⟩ | ⟨c, s, ds, n, -, hdec, rfl, -⟩
          · have e2 : rest = b!"e" := e1.symm
            rw [e2] at hr
            exact absurd hr (by decide)
          · have hl := congrArg List.length e1
            have := (dec_iff.mp hdec).1
            have : ds.length ≠ 0 := by simpa using this
            simp only [List.length_append, List.length_cons, List.length_nil] at hl
            omega
        · have e2 := (List.cons.inj e1).1
          cases e2
    · have e1 := (List.cons.inj e).1
      cases e1

end Thors.Props
