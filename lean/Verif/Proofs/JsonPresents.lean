import Verif.Model.JsonOps
import Verif.Proofs.JsonSource
import Verif.Proofs.FloatText
/-
A JSON parser standing in front of a JSON text presents the tree of that text.
-/
namespace Thors
open Spec StrIn

/-- The parser has control state `c` and stands in front of `text`. -/
structure At (conv : Bool) (c : JCtl) (text : Bytes) (s : JsonP) : Prop where
  ctl : s.ctl = c
  inp : AtI text s.lex.inp
  conv : s.lex.convertBackSlash = conv

theorem zeroOk_of {t : Bytes} {i : Int} (h : IntLit t i) (hz : ¬ litLeadingZero t) : zeroOk t = true := by
  unfold zeroOk
  split
  · exact absurd (by simp [litLeadingZero, leadingZero]) hz
  · rfl

theorem checkFixed_at {l : Lexer} {check post : Bytes} (h : AtI (check ++ post) l.inp) :
    ∃ l', l.checkFixed check = .ok l' ∧ AtI post l'.inp ∧ l'.convertBackSlash = l.convertBackSlash ∧ l'.lastBool = l.lastBool := by
  have hl := at_len h
  simp at hl
  have hr := h.1
  unfold StrIn.rest at hr
  have hadv := at_adv h
  unfold Lexer.checkFixed StrIn.read
  simp only
  rw [if_neg (by omega), hr]
  simp only [Res.ok_bind]
  have hlen : ((check ++ post).take check.length) = check := by simp
  rw [hlen]
  rw [if_pos]
  · refine ⟨_, rfl, ?_, rfl, rfl⟩
    have h2 := hadv.2.2
    simp only at h2
    simp only [decide_eq_true h2]
    exact hadv
  · simp; omega

theorem getString_bad {l : Lexer} {c : Byte} {t : Bytes} (h : AtI (c :: t) l.inp) (hc : c ≠ 0x22) : l.getStringInto = throwStd := by
  obtain ⟨s, h1, -, -, -⟩ := at_get h
  unfold Lexer.getStringInto
  rw [h1]
  simp only [toChar_sext]
  rw [if_pos hc]

theorem getString_at {l : Lexer} {s : JStr} {post : Bytes} (hb : Body codePair s.raw s.dec) (h : AtI ([0x22] ++ s.raw ++ [0x22] ++ post) l.inp) :
    ∃ l', l.getStringInto = .ok (s.val l.convertBackSlash, l') ∧ AtI post l'.inp ∧ l'.convertBackSlash = l.convertBackSlash := by
  have hr : l.inp.rest = 0x22 :: (s.raw ++ 0x22 :: post) := by rw [h.1]; simp
  rw [getStringInto_found l _ _ _ h.2.1 hr (splitQuote_body hb post), unescapeInPlace_eq, unesc_body hb]
  have hadv := at_adv h
  refine ⟨{ l with inp := { l.inp with pos := l.inp.pos + (s.raw.length + 2), good := true } }, ?_, ?_, rfl⟩
  · unfold JStr.val
    cases l.convertBackSlash <;> rfl
  · simp only [List.length_append, List.length_singleton] at hadv
    have e : 1 + s.raw.length + 1 = s.raw.length + 2 := by omega
    rw [e] at hadv
    exact hadv

theorem skipString_at {ctl : Bool} {i : StrIn} {s : JStr} {post : Bytes} (hb : Body codePair s.raw s.dec)
    (h : AtI ([0x22] ++ s.raw ++ [0x22] ++ post) i) (hk : s.skips = true) (hc : ctl = true → s.copies = true) :
    ∃ i1 i2, i.get = (sext 0x22, i1) ∧ Lexer.scanQuote ctl (i1.data.length + 1) i1 (toChar (sext 0x22)) [] = .ok (s.raw, i2) ∧ AtI post i2 := by
  rw [List.append_assoc, List.append_assoc] at h
  obtain ⟨i1, h1, h2, -, -⟩ := at_get h
  unfold JStr.skips at hk
  simp only [Bool.and_eq_true, decide_eq_true_eq, Bool.not_eq_true', List.contains_eq_mem, decide_eq_false_iff_not] at hk
  obtain ⟨i2, h3, h4⟩ := scanQuote_body (ctl := ctl) hb (fun c hc' => ⟨by rintro rfl; exact hk.2 hc', fun hh => by
    have := hc hh
    unfold JStr.copies at this
    simp only [Bool.and_eq_true, List.all_eq_true, decide_eq_true_eq] at this
    exact this.2 c hc'⟩) hk.1 h2
  exact ⟨i1, i2, h1, by rw [toChar_sext]; exact h3, h4⟩

/-- Everything the client can do with a scalar. -/
theorem scalar_after {conv : Bool} {c : JCtl} {x : JScalar} {t post : Bytes} {s : JsonP} (hx : ScalarText codePair x t) (hp : Ends (.scalar x) post)
    (h : At conv c (t ++ post) s) (hl : s.lex.lastToken = some (lexOf x)) (hn : s.lex.lastNull = decide (lexOf x = .null_))
    (hb : ∀ b, x = .bool b → s.lex.lastBool = b) : After JsonP.ops (jsem conv) (.scalar x) (At conv c post) s := by
  obtain ⟨hctl, hin, hcv⟩ := h
  have hnum : ∀ {a f e : Bytes} {i : Int}, IntLit a i → ¬ litLeadingZero a → Frac f → Expo e → t = a ++ (f ++ e) → lexOf x = .number → valueEnds post →
      Skips (At conv c post) (JsonP.ignoreDataValue s) ∧ Reads (At conv c post) (JsonP.getRaw s) (.ok t) := by
    intro a f e i h1 h2 h3 h4 h5 h6 hp
    subst h5
    obtain ⟨s', e1, h'⟩ := readNumber_at h1 h2 h3 h4 hp hin
    constructor
    · refine ⟨⟨{ s.lex with inp := s', buffer := a ++ (f ++ e) }, s.ctl⟩, ?_, ⟨hctl, h', hcv⟩⟩
      unfold JsonP.ignoreDataValue Lexer.ignoreRawValue
      simp only [hl, h6, e1, Res.ok_bind, Res.pure_eq]
    · refine ⟨⟨{ s.lex with inp := s', buffer := a ++ (f ++ e) }, s.ctl⟩, ?_, ⟨hctl, h', hcv⟩⟩
      unfold JsonP.getRaw Lexer.getRawString
      simp only [hl, h6, e1, Res.ok_bind, Res.pure_eq]
  have hbad : ∀ (ch : Byte) (cs : Bytes), t = ch :: cs → isDigit ch = false → ch ≠ 0x2D → ∀ k, JsonP.getInt k s = throwStd := by
    rintro ch cs rfl h1 h2 k
    unfold JsonP.getInt
    rw [scanInt_bad k h1 (fun h => absurd h h2) hin.2.1 hin.1]
    rfl
  have hbadS : ∀ (ch : Byte) (cs : Bytes), t = ch :: cs → ch ≠ 0x22 → JsonP.getStr s = throwStd := by
    rintro ch cs rfl h2
    unfold JsonP.getStr
    rw [getString_bad hin h2]
    rfl
  have hbadB : lexOf x ≠ .true_ → lexOf x ≠ .false_ → JsonP.getBool s = throwStd := by
    intro h1 h2
    unfold JsonP.getBool Lexer.getLastBool
    rw [hl]
    cases hh : lexOf x <;> simp_all <;> rfl
  have hign : ∀ {n : Nat}, t.length = n → AtI post (s.lex.inp.ignore n) := by
    rintro n rfl; exact at_ignore hin
  have hbadF : ∀ (ch : Byte) (cs : Bytes), t = ch :: cs → isDigit ch = false → ch ≠ 0x2D → ch ≠ 0x2E → (∀ u, scanSpecial false (ch :: (cs ++ u)) = none) →
      ∀ f, JsonP.getFlt f s = throwStd := by
    rintro ch cs rfl h1 h2 h3 h4 f
    unfold JsonP.getFlt
    rw [scanFlt_bad f h1 h2 h3 (h4 post) hin.2.1 hin.1]
    rfl
  have hnumF : ∀ {y : Decimal}, JsonNumber t y → valueEnds post → x.number = some y → ∀ f, Reads (At conv c post) (JsonP.getFlt f s) ((jsem conv).readFlt f x) := by
    intro y hy hp' hxy f
    unfold JsonP.getFlt
    rw [scanFlt_number s.lex f hy (valueEnds_number hp') hin.2.1 hin.1]
    simp only [jsem, hxy]
    cases y.toFlt f with
    | none => rfl
    | some v => exact ⟨_, rfl, ⟨hctl, at_adv hin, hcv⟩⟩
  refine ⟨?_, ?_, ?_, ?_, ?_, ?_, ?_⟩
  · show s.lex.lastNull = _
    rw [hn]
    cases x with
    | bool b => cases b <;> simp [lexOf, jsem]
    | _ => simp [lexOf, jsem]
  · intro k
    show Reads _ (JsonP.getInt k s) _
    cases x with
    | null => rw [hbad _ _ hx (by decide) (by decide) k]; rfl
    | bool b => cases b <;> (rw [hbad _ _ hx (by decide) (by decide) k]; rfl)
    | str b => rw [hbad _ _ hx.2 (by decide) (by decide) k]; rfl
    | frac tx dx =>
      obtain ⟨rfl, ⟨a, i, f, e, h1, -, h3, h4, h5, rfl⟩, -⟩ := hx
      have : ∃ ch rest, f ++ e = ch :: rest ∧ (ch = 0x2E ∨ ch = 0x65 ∨ ch = 0x45) := by
        cases f with
        | nil =>
          cases e with
          | nil => exact absurd rfl h5
          | cons ch e => exact ⟨ch, e, rfl, .inr (expo_ends h4 ch e rfl).2⟩
        | cons ch f => exact ⟨ch, f ++ e, rfl, .inl (frac_ends h3 ch f rfl).2⟩
      obtain ⟨ch, rest, h6, h7⟩ := this
      unfold JsonP.getInt
      rw [scanInt_frac k a (rest ++ post) ch i s.lex h1 h7 hin.2.1 (by rw [hin.1, h6]; simp)]
      rfl
    | int tx i =>
      obtain ⟨rfl, h1, h2⟩ := hx
      show Reads _ _ (if _ then _ else _)
      by_cases hm : k.signed = false ∧ t.head? = some 0x2D
      · rw [if_pos hm]
        unfold JsonP.getInt
        cases t with
        | nil => simp at hm
        | cons ch cs =>
          simp only [List.head?_cons, Option.some.injEq] at hm
          rw [scanInt_bad k (by rw [hm.2]; decide) (fun _ => hm.1) hin.2.1 hin.1]
          rfl
      · rw [if_neg hm]
        unfold JsonP.getInt
        have hs : k.signed = true ∨ 0 ≤ i ∧ ∀ cs, t ≠ 0x2D :: cs := by
          cases hk : k.signed with
          | true => exact .inl rfl
          | false =>
            right
            have : t.head? ≠ some 0x2D := fun h => hm ⟨hk, h⟩
            cases h1 with
            | pos h => exact ⟨by omega, by rintro cs rfl; simp at this⟩
            | neg h => simp at this
        rw [scanInt_lit s.lex k h1 (valueEnds_number hp) hs hin.2.1 hin.1, if_neg (by rw [zeroOk_of h1 h2]; decide)]
        by_cases hf : k.fits i
        · rw [if_pos hf, if_pos (fits_iff.1 hf)]
          exact ⟨_, rfl, ⟨hctl, at_adv hin, hcv⟩⟩
        · rw [if_neg hf, if_neg (fun h => hf (fits_iff.2 h))]; rfl
  · show Reads _ (JsonP.getBool s) _
    cases x with
    | null => rw [hbadB (by decide) (by decide)]; rfl
    | str b => rw [hbadB (by simp [lexOf]) (by simp [lexOf])]; rfl
    | frac b y => rw [hbadB (by simp [lexOf]) (by simp [lexOf])]; rfl
    | int b => rw [hbadB (by simp [lexOf]) (by simp [lexOf])]; rfl
    | bool b =>
      unfold JsonP.getBool Lexer.getLastBool
      rw [hl]
      have hx' : t = if b then b!"true" else b!"false" := hx
      have hb' := hb b rfl
      cases b with
      | true =>
        simp only [if_true] at hx'
        subst hx'
        obtain ⟨l', e1, h1, h2, h3⟩ := checkFixed_at hin
        simp only [lexOf, e1, Res.ok_bind, Res.pure_eq, h3, hb']
        exact ⟨_, rfl, ⟨hctl, h1, h2.trans hcv⟩⟩
      | false =>
        simp only [Bool.false_eq_true, if_false] at hx'
        subst hx'
        obtain ⟨l', e1, h1, h2, h3⟩ := checkFixed_at hin
        simp only [lexOf, e1, Res.ok_bind, Res.pure_eq, h3, hb']
        exact ⟨_, rfl, ⟨hctl, h1, h2.trans hcv⟩⟩
  · show Reads _ (JsonP.getStr s) _
    have hlitS : ∀ {a u : Bytes} {i : Int}, IntLit a i → t = a ++ u → JsonP.getStr s = throwStd := by
      rintro a u i h rfl
      cases h with
      | pos h =>
        obtain ⟨d, t, rfl, hd⟩ := digits_head ⟨_, h⟩
        exact hbadS d _ rfl (digit_ne hd).2.2.2.2.2.2.1
      | neg h => exact hbadS _ _ rfl (by decide)
    cases x with
    | null => rw [hbadS _ _ hx (by decide)]; rfl
    | bool b => cases b <;> (rw [hbadS _ _ hx (by decide)]; rfl)
    | int tx i =>
      obtain ⟨rfl, h1, -⟩ := hx
      rw [hlitS (u := []) h1 (by simp)]; rfl
    | frac tx dx =>
      obtain ⟨rfl, ⟨a, i, f, e, h1, -, h3, h4, h5, rfl⟩, -⟩ := hx
      rw [hlitS h1 rfl]; rfl
    | str b =>
      obtain ⟨h1, rfl⟩ := hx
      obtain ⟨l', e1, h2, h3⟩ := getString_at h1 hin
      unfold JsonP.getStr
      rw [e1, hcv]
      exact ⟨_, rfl, ⟨hctl, h2, h3.trans hcv⟩⟩
  · intro hk
    show Skips _ (JsonP.ignoreDataValue s)
    cases x with
    | null =>
      have hx' : t = b!"null" := hx
      subst hx'
      refine ⟨⟨{ s.lex with inp := s.lex.inp.ignore 4 }, s.ctl⟩, ?_, ⟨hctl, hign rfl, hcv⟩⟩
      unfold JsonP.ignoreDataValue Lexer.ignoreRawValue
      simp only [hl, lexOf, Res.ok_bind, Res.pure_eq, reduceIte, Bool.false_eq_true]
    | bool b =>
      have hx' : t = if b then b!"true" else b!"false" := hx
      cases b with
      | true =>
        simp only [if_true] at hx'
        subst hx'
        refine ⟨⟨{ s.lex with inp := s.lex.inp.ignore 4 }, s.ctl⟩, ?_, ⟨hctl, hign rfl, hcv⟩⟩
        unfold JsonP.ignoreDataValue Lexer.ignoreRawValue
        simp only [hl, lexOf, Res.ok_bind, Res.pure_eq, reduceIte, Bool.false_eq_true]
      | false =>
        simp only [Bool.false_eq_true, if_false] at hx'
        subst hx'
        refine ⟨⟨{ s.lex with inp := s.lex.inp.ignore 5 }, s.ctl⟩, ?_, ⟨hctl, hign rfl, hcv⟩⟩
        unfold JsonP.ignoreDataValue Lexer.ignoreRawValue
        simp only [hl, lexOf, Res.ok_bind, Res.pure_eq, reduceIte, Bool.false_eq_true]
    | int tx i =>
      obtain ⟨rfl, h1, h2⟩ := hx
      exact (hnum h1 h2 (.inl rfl) (.inl rfl) (by simp) rfl hp).1
    | frac tx dx =>
      obtain ⟨rfl, ⟨a, i, f, e, h1, h2, h3, h4, h5, h6⟩, -⟩ := hx
      exact (hnum h1 h2 h3 h4 h6 rfl hp).1
    | str b =>
      obtain ⟨h1, rfl⟩ := hx
      have hk' : b.skips = true := by simpa [jsem] using hk
      obtain ⟨i1, i2, e1, e2, h3⟩ := skipString_at (ctl := false) h1 hin hk' (by simp)
      refine ⟨⟨{ s.lex with inp := i2 }, s.ctl⟩, ?_, ⟨hctl, h3, hcv⟩⟩
      unfold JsonP.ignoreDataValue Lexer.ignoreRawValue
      simp only [hl, lexOf, e1, e2, Res.ok_bind, Res.pure_eq]
  · intro b hr
    show Reads _ (JsonP.getRaw s) _
    cases x with
    | null =>
      have hx' : t = b!"null" := hx
      subst hx'
      simp only [jsem, Option.some.injEq] at hr
      subst hr
      refine ⟨⟨{ s.lex with inp := s.lex.inp.ignore 4 }, s.ctl⟩, ?_, ⟨hctl, hign rfl, hcv⟩⟩
      unfold JsonP.getRaw Lexer.getRawString
      simp only [hl, lexOf, Res.ok_bind, Res.pure_eq, reduceIte, Bool.false_eq_true]
    | bool bb =>
      have hx' : t = if bb then b!"true" else b!"false" := hx
      simp only [jsem, Option.some.injEq] at hr
      subst hr
      cases bb with
      | true =>
        simp only [if_true] at hx'
        subst hx'
        refine ⟨⟨{ s.lex with inp := s.lex.inp.ignore 4 }, s.ctl⟩, ?_, ⟨hctl, hign rfl, hcv⟩⟩
        unfold JsonP.getRaw Lexer.getRawString
        simp only [hl, lexOf, Res.ok_bind, Res.pure_eq, reduceIte, Bool.false_eq_true]
      | false =>
        simp only [Bool.false_eq_true, if_false] at hx'
        subst hx'
        refine ⟨⟨{ s.lex with inp := s.lex.inp.ignore 5 }, s.ctl⟩, ?_, ⟨hctl, hign rfl, hcv⟩⟩
        unfold JsonP.getRaw Lexer.getRawString
        simp only [hl, lexOf, Res.ok_bind, Res.pure_eq, reduceIte, Bool.false_eq_true]
    | int tx i =>
      obtain ⟨rfl, h1, h2⟩ := hx
      simp only [jsem, Option.some.injEq] at hr
      subst hr
      exact (hnum h1 h2 (.inl rfl) (.inl rfl) (by simp) rfl hp).2
    | frac tx dx =>
      obtain ⟨rfl, ⟨a, i, f, e, h1, h2, h3, h4, h5, h6⟩, -⟩ := hx
      simp only [jsem, Option.some.injEq] at hr
      subst hr
      exact (hnum h1 h2 h3 h4 h6 rfl hp).2
    | str bb =>
      obtain ⟨h1, rfl⟩ := hx
      simp only [jsem] at hr
      split at hr
      · rename_i hc
        simp only [Option.some.injEq] at hr
        subst hr
        have hk' : bb.skips = true := by unfold JStr.copies at hc; simp at hc; exact hc.1
        obtain ⟨i1, i2, e1, e2, h3⟩ := skipString_at (ctl := true) h1 hin hk' (fun _ => hc)
        refine ⟨⟨{ s.lex with inp := i2, buffer := [0x22] ++ bb.raw ++ [0x22] }, s.ctl⟩, ?_, ⟨hctl, h3, hcv⟩⟩
        unfold JsonP.getRaw Lexer.getRawString
        rw [toChar_sext] at e2
        simp only [hl, lexOf, e1, Res.ok_bind, Res.pure_eq, toChar_sext, e2]
      · simp at hr
  · intro f
    show Reads _ (JsonP.getFlt f s) _
    cases x with
    | null => rw [hbadF _ _ hx (by decide) (by decide) (by decide) (fun u => rfl) f]; rfl
    | bool b => cases b <;> (rw [hbadF _ _ hx (by decide) (by decide) (by decide) (fun u => rfl) f]; rfl)
    | str b => rw [hbadF _ _ hx.2 (by decide) (by decide) (by decide) (fun u => scanSpecial_head (by decide) (by decide)) f]; rfl
    | frac tx dx => exact hnumF hx.2.2 hp rfl f
    | int tx i =>
      obtain ⟨rfl, h1, h2⟩ := hx
      exact hnumF (int_number h1 h2) hp rfl f

/-! ### Tokens -/

/-- The lexer has just classified `ch`, which `t` follows. -/
structure Lexed (conv : Bool) (ch : Byte) (t : Bytes) (l : Lexer) : Prop where
  inp : AtI (if isPunct ch then t else ch :: t) l.inp
  conv : l.convertBackSlash = conv
  tok : l.lastToken = some (Lexer.classify ch)
  null : l.lastNull = decide (Lexer.classify ch = .null_)
  tr : Lexer.classify ch = .true_ → l.lastBool = true
  fa : Lexer.classify ch = .false_ → l.lastBool = false

theorem yylex_at {conv : Bool} {l : Lexer} {w : Bytes} {ch : Byte} {t : Bytes} (h : AtI (w ++ ch :: t) l.inp) (hcv : l.convertBackSlash = conv)
    (hw : Ws w) (hch : isSpace ch = false) : ∃ l', l.yylex = (Lexer.classify ch, l') ∧ Lexed conv ch t l' := by
  obtain ⟨s', h1, h2, h3⟩ := at_readChar h (ws_space hw) hch
  unfold Lexer.yylex peekNextNonSpace
  rw [h1]
  simp only
  cases hp : isPunct ch with
  | true =>
    simp only [if_true]
    refine ⟨_, rfl, ⟨by simp only [hp, if_true]; exact h2, hcv, rfl, rfl, fun h => by simp [h], fun h => by simp [h]⟩⟩
  | false =>
    simp only [Bool.false_eq_true, if_false]
    refine ⟨_, rfl, ⟨by simp only [hp, Bool.false_eq_true, if_false]; exact h3, hcv, rfl, rfl, fun h => by simp [h], fun h => by simp [h]⟩⟩

/-- One token without a separator in front. -/
theorem next_lex {conv : Bool} {c c' : JCtl} {tok : Tok} {w : Bytes} {ch : Byte} {t : Bytes} {s : JsonP} (hst : c.started = true)
    (hd : c.currentState ≠ .Done) (he : c.currentState ≠ .Error) (h : At conv c (w ++ ch :: t) s) (hw : Ws w) (hch : isSpace ch = false)
    (hf : c.feed (Lexer.classify ch) = .ok (some tok, c')) :
    ∃ l, s.getNextToken = .ok (tok, ⟨l, c'⟩) ∧ Lexed conv ch t l := by
  obtain ⟨l, h1, h2⟩ := yylex_at h.inp h.conv hw hch
  refine ⟨l, ?_, h2⟩
  unfold JsonP.getNextToken
  rw [h.ctl, if_neg (by simp [hst]), if_neg hd, if_neg he]
  unfold JsonP.lexStep
  rw [h1]
  simp only
  rw [h.ctl, hf]
  rfl

/-- One token with a separator in front. -/
theorem next_sep {conv : Bool} {c c1 c' : JCtl} {tok : Tok} {w1 w2 : Bytes} {sep ch : Byte} {t : Bytes} {s : JsonP} (hst : c.started = true)
    (hd : c.currentState ≠ .Done) (he : c.currentState ≠ .Error) (h : At conv c (w1 ++ sep :: (w2 ++ ch :: t)) s) (hw1 : Ws w1) (hw2 : Ws w2)
    (hsep : isSpace sep = false) (hpu : isPunct sep = true) (hch : isSpace ch = false)
    (hf1 : c.feed (Lexer.classify sep) = .ok (none, c1)) (hf : c1.feed (Lexer.classify ch) = .ok (some tok, c')) :
    ∃ l, s.getNextToken = .ok (tok, ⟨l, c'⟩) ∧ Lexed conv ch t l := by
  obtain ⟨l1, h1, h2⟩ := yylex_at h.inp h.conv hw1 hsep
  have h3 := h2.inp
  rw [hpu, if_pos rfl] at h3
  obtain ⟨l, h4, h5⟩ := yylex_at h3 h2.conv hw2 hch
  refine ⟨l, ?_, h5⟩
  unfold JsonP.getNextToken
  rw [h.ctl, if_neg (by simp [hst]), if_neg hd, if_neg he]
  unfold JsonP.lexStep
  rw [h1]
  simp only
  rw [h.ctl, hf1]
  simp only [Res.ok_bind]
  unfold JsonP.lexStep
  simp only
  rw [h4]
  simp only
  rw [hf]
  rfl

/-- A JSON parser on a string handles single lexemes correctly. -/
def jsonSource (conv : Bool) : JSource JsonP.ops (jsem conv) where
  At := At conv
  Fine x post := Ends (.scalar x) post
  fine h := Ends.of h
  Lx c ch t s := s.ctl = c ∧ Lexed conv ch t s.lex
  next_lex h1 h2 h3 h4 h5 h6 h7 := by
    obtain ⟨l, e, h⟩ := next_lex h1 h2 h3 h4 h5 h6 h7
    exact ⟨_, e, rfl, h⟩
  next_sep h1 h2 h3 h4 h5 h6 h7 h8 h9 h10 h11 := by
    obtain ⟨l, e, h⟩ := next_sep h1 h2 h3 h4 h5 h6 h7 h8 h9 h10 h11
    exact ⟨_, e, rfl, h⟩
  lx_punct hp h := by
    obtain ⟨h1, h2⟩ := h
    have h3 := h2.inp
    rw [hp, if_pos rfl] at h3
    exact ⟨h1, h3, h2.conv⟩
  lx_null h := h.2.null
  scalar := by
    intro c x ch cs post s hx hp ⟨hc, hl⟩
    obtain ⟨ch', cs', e, h1, h2, h3⟩ := scalar_head hx
    obtain ⟨rfl, rfl⟩ := List.cons.inj e
    have hin := hl.inp
    rw [h3, if_neg (by simp)] at hin
    refine scalar_after (t := ch :: cs) hx hp ⟨hc, hin, hl.conv⟩ (by rw [← h1]; exact hl.tok) (by rw [← h1]; exact hl.null) ?_
    rintro b rfl
    cases b with
    | true => exact hl.tr h1
    | false => exact hl.fa h1
  key := by
    rintro c k rest ⟨l, c'⟩ hk ⟨hc, hl⟩
    simp only at hc hl
    subst hc
    have hin := hl.inp
    rw [if_neg (by decide)] at hin
    have hin' : AtI ([0x22] ++ k.raw ++ [0x22] ++ rest) l.inp := by simpa using hin
    constructor
    · obtain ⟨l', e1, h2, h3⟩ := getString_at hk hin'
      rw [hl.conv] at e1
      refine ⟨⟨{ l' with buffer := k.val conv }, c'⟩, ?_, ⟨rfl, h2, h3.trans hl.conv⟩⟩
      show JsonP.getKey _ = _
      unfold JsonP.getKey Lexer.getString
      rw [e1]
      rfl
    · intro hs
      obtain ⟨i1, i2, e1, e2, h3⟩ := skipString_at (ctl := false) hk hin' hs (by simp)
      refine ⟨⟨{ l with inp := i2 }, c'⟩, ?_, ⟨rfl, h3, hl.conv⟩⟩
      show JsonP.ignoreDataValue _ = _
      unfold JsonP.ignoreDataValue Lexer.ignoreRawValue
      simp only [hl.tok, show Lexer.classify 0x22 = .string by decide, e1, e2, Res.ok_bind, Res.pure_eq]

/-- Statement of the theorem for one tree. -/
def PresentsText (conv : Bool) (v : JTree) : Prop :=
  ∀ (t : Bytes), JText codePair v t → ∀ (c : JCtl) (pre post : Bytes) (s : JsonP), Pre c pre → Ends v post → At conv c (pre ++ t ++ post) s →
    Presents JsonP.ops (jsem conv) v (At conv c.done post) s

/-- A JSON parser in front of a JSON text presents the tree of that text. -/
theorem presents_text (conv : Bool) (v : JTree) : PresentsText conv v := by
  intro t ht c pre post s hp he h
  refine (jsonSource conv).presents_text v t ht c pre post s hp ?_ h
  cases v with
  | scalar x => exact he
  | _ => trivial
end Thors
