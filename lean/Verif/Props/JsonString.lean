import Verif.Model.JsonToken
import Verif.Proofs.JsonString2
import Verif.Proofs.Utf8
/-
Properties C01-C07: JSON strings.
-/
namespace Thors.Props
open Thors Spec

/-- C01. Every string survives a JSON round trip: whatever the bytes of `v` and whatever follows, if
the reader is positioned at the text the printer emits for `v`, reading a string gives `v` back and the
reader stops exactly behind the closing quote. -/
theorem C01_string_round_trip (v post : Bytes) (l : Lexer) (hc : l.convertBackSlash = true)
    (hg : l.inp.good = true) (hr : l.inp.rest = jsonString v ++ post) :
    ∃ l', l.getStringInto = .ok (v, l') ∧ l'.inp.rest = post ∧ l'.inp.good = true ∧
      l' = { l with inp := l'.inp } := by
  have hb : Body codePair (escapeString v) v := escape_body _ v
  have hr' : l.inp.rest = 0x22 :: (escapeString v ++ 0x22 :: post) := by
    rw [hr]; simp [jsonString]
  rw [getStringInto_found l _ _ _ hg hr' (splitQuote_body hb post), if_pos hc, unescapeInPlace_eq, unesc_body hb]
  refine ⟨_, rfl, ?_, rfl, rfl⟩
  unfold StrIn.rest at hr' ⊢
  simp only
  rw [← List.drop_drop, hr']
  simp

/-- non-vacuity: a string with a quote, a control character, a backslash at the end and a byte above
0x7F, followed by a comma. -/
example : ∃ (v post : Bytes) (l : Lexer), l.convertBackSlash = true ∧ l.inp.good = true ∧
    l.inp.rest = jsonString v ++ post ∧ v = [0x22, 0x01, 0xFF, 0x5C] ∧ post = b!",x" :=
  ⟨[0x22, 0x01, 0xFF, 0x5C], b!",x",
    { inp := StrIn.ofBytes (jsonString [0x22, 0x01, 0xFF, 0x5C] ++ b!",x"), buffer := [], lastToken := none,
      lastBool := false, lastNull := false, convertBackSlash := true }, rfl, rfl, rfl, rfl, rfl⟩

/-- C02. The text emitted for a string is a quote, a legal RFC 8259 string body denoting exactly the
string, and a quote. `Body` does not allow a raw byte below 0x20, an unescaped quote, or a backslash
that does not start one of the escapes of the RFC. -/
theorem C02_emitted_string_is_legal (v : Bytes) :
    ∃ body, jsonString v = 0x22 :: body ++ [0x22] ∧ Body rfcPair body v ∧ BasicBody body v := by
  refine ⟨escapeString v, rfl, escape_body _ v, ?_⟩
  rw [escapeString_eq]
  induction v with
  | nil => exact .nil
  | cons c cs ih => simpa using BasicBody.cons (escape_item c) ih

/-- Unique reading: no proper prefix of the emitted token is itself a complete string token, so the
token an RFC reader sees ends at the final quote. Stated for every legal body. -/
theorem C02_token_ends_at_final_quote {pr : Nat → Nat → Bytes} {body v body2 v2 post post2 : Bytes}
    (h : Body pr body v) (h2 : Body pr body2 v2)
    (he : body ++ 0x22 :: post = body2 ++ 0x22 :: post2) : body = body2 ∧ post = post2 := by
  have e1 := splitQuote_body h post
  have e2 := splitQuote_body h2 post2
  rw [he, e2] at e1
  simp at e1
  exact ⟨e1.1.symm, e1.2.symm⟩

example : Body rfcPair (escapeString b!"a\"b\\\n") b!"a\"b\\\n" := escape_body _ _

/-- C03. Every literal made of raw characters, short escapes and `\uXXXX` escapes of the BMP decodes to
what RFC 8259 says it denotes, and the reader stops exactly behind it. -/
theorem C03_literal_decoding (body v post : Bytes) (h : BasicBody body v) (l : Lexer)
    (hc : l.convertBackSlash = true) (hg : l.inp.good = true)
    (hr : l.inp.rest = 0x22 :: body ++ 0x22 :: post) :
    ∃ l', l.getStringInto = .ok (v, l') ∧ l'.inp.rest = post ∧ l'.inp.good = true := by
  have hb : Body codePair body v := by
    clear hr
    induction h with
    | nil => exact .nil
    | cons h _ ih => exact .basic h ih
  rw [getStringInto_found l _ _ _ hg hr (splitQuote_body hb post), if_pos hc, unescapeInPlace_eq, unesc_body hb]
  refine ⟨_, rfl, ?_, rfl⟩
  unfold StrIn.rest at hr ⊢
  simp only
  rw [← List.drop_drop, hr]
  simp

/-- non-vacuity: `a\n€` denotes `a`, newline, and the three bytes of the euro sign. -/
example : BasicBody b!"a\\n\\u20AC" [0x61, 0x0A, 0xE2, 0x82, 0xAC] :=
  .cons (t := b!"a") (o := b!"a") (.raw _ (by decide) (by decide) (by decide))
    (.cons (t := b!"\\n") (o := [0x0A]) (.short .n)
      (.cons (t := b!"\\u20AC") (o := [0xE2, 0x82, 0xAC])
        (.uni (v := 0x20AC) (.mk (.dec 2 (by decide)) (.dec 0 (by decide)) (.upper 0 (by decide)) (.upper 2 (by decide)))
          (by decide)) .nil))

/-- The full statement of C04: every surrogate pair decodes to the UTF-8 of the code point it denotes. -/
def C04_full : Prop :=
  ∀ (text : Bytes) (hi lo : Nat), PairItem text hi lo →
    unescapeInPlace text = .ok (utf8 (pairCodePoint hi lo))

/-- C04 as it really is: the code point `pairCodePoint hi lo` comes out right when it lies in an odd
plane (1, 3, ..., 15), and is decoded as the code point 0x10000 lower when it lies in an even plane. -/
theorem C04_what_surrogates_decode_to (text : Bytes) (hi lo : Nat) (h : PairItem text hi lo) :
    unescapeInPlace text = .ok (utf8 (if pairCodePoint hi lo / 0x10000 % 2 = 1 then pairCodePoint hi lo
      else pairCodePoint hi lo - 0x10000)) := by
  have hb : Body codePair (text ++ []) (codePair hi lo ++ []) := .pair h .nil
  have hs : highSurrogate hi ∧ lowSurrogate lo := by cases h; exact ⟨‹_›, ‹_›⟩
  rw [unescapeInPlace_eq, ← codePairValue_char hs.1 hs.2]
  simpa [codePair] using unesc_body hb

/-- C04, the part that holds: a pair is decoded to the code point it denotes exactly when that code
point lies in an odd plane. Missing from C04: the even planes 2, 4, ..., 16, where the code is wrong. -/
theorem C04_surrogate_pairs_partial (text : Bytes) (hi lo : Nat) (h : PairItem text hi lo) :
    unescapeInPlace text = .ok (utf8 (pairCodePoint hi lo)) ↔ pairCodePoint hi lo / 0x10000 % 2 = 1 := by
  have hs : highSurrogate hi ∧ lowSurrogate lo := by cases h; exact ⟨‹_›, ‹_›⟩
  rw [C04_what_surrogates_decode_to text hi lo h]
  unfold highSurrogate lowSurrogate at hs
  constructor
  · intro he
    apply Classical.byContradiction
    intro hn
    rw [if_neg hn] at he
    have h1 : pairCodePoint hi lo < 0x110000 := by unfold pairCodePoint; omega
    have h2 : 0x10000 ≤ pairCodePoint hi lo := by unfold pairCodePoint; omega
    have := utf8_inj_supp (by omega) (by omega) h2 h1 (Res.ok.inj he)
    omega
  · intro he
    rw [if_pos he]

/-- A document whose strings contain only pairs from odd planes is decoded as the RFC says, at any
length and mixture. -/
theorem C04_bodies_partial (body v post : Bytes) (l : Lexer)
    (h : Body (fun hi lo => if pairCodePoint hi lo / 0x10000 % 2 = 1 then rfcPair hi lo
      else utf8 (pairCodePoint hi lo - 0x10000)) body v)
    (hc : l.convertBackSlash = true) (hg : l.inp.good = true)
    (hr : l.inp.rest = 0x22 :: body ++ 0x22 :: post) :
    ∃ l', l.getStringInto = .ok (v, l') ∧ l'.inp.rest = post ∧ l'.inp.good = true := by
  have hb : Body codePair body v := by
    clear hr
    induction h with
    | nil => exact .nil
    | basic h _ ih => exact .basic h ih
    | pair h _ ih =>
      rename_i t ts os hi lo _
      have hs : highSurrogate hi ∧ lowSurrogate lo := by cases h; exact ⟨‹_›, ‹_›⟩
      have := Body.pair (pair := codePair) h ih
      have e : codePair hi lo = (if pairCodePoint hi lo / 0x10000 % 2 = 1 then rfcPair hi lo
          else utf8 (pairCodePoint hi lo - 0x10000)) := by
        unfold codePair rfcPair
        rw [codePairValue_char hs.1 hs.2]
        split <;> rfl
      rw [← e]
      exact this
  rw [getStringInto_found l _ _ _ hg hr (splitQuote_body hb post), if_pos hc, unescapeInPlace_eq, unesc_body hb]
  refine ⟨_, rfl, ?_, rfl⟩
  unfold StrIn.rest at hr ⊢
  simp only
  rw [← List.drop_drop, hr]
  simp

/-- The pair `𠀀` (U+20000). -/
theorem pair_20000 : PairItem b!"\\uD840\\uDC00" 0xD840 0xDC00 :=
  .mk (h1 := b!"D840") (h2 := b!"DC00") (hi := 0xD840) (lo := 0xDC00)
    (.mk (.upper 3 (by decide)) (.dec 8 (by decide)) (.dec 4 (by decide)) (.dec 0 (by decide)))
    (.mk (.upper 3 (by decide)) (.upper 2 (by decide)) (.dec 0 (by decide)) (.dec 0 (by decide)))
    (by decide) (by decide)

/-- C04 does not hold in general: `𠀀` (U+20000) is decoded as U+10000. -/
theorem C04_false : ¬ C04_full := by
  intro h
  have := (C04_surrogate_pairs_partial _ _ _ pair_20000).mp (h _ _ _ pair_20000)
  revert this
  decide

/-- non-vacuity of the odd plane case: `😀` is U+1F600. -/
example : pairCodePoint 0xD83D 0xDE00 = 0x1F600 ∧ pairCodePoint 0xD83D 0xDE00 / 0x10000 % 2 = 1 := by decide

/-- C05, no bad reads: whatever the text and the reader's position, reading a string never has
undefined behaviour; in particular an escape cut off by the end of the string is not read past the
terminating NUL. -/
theorem C05_string_reading_is_safe (l : Lexer) (body : Bytes) :
    l.getStringInto ≠ .ub ∧ unescapeInPlace body ≠ .ub :=
  ⟨getStringInto_ne_ub l, unescapeInPlace_ne_ub body⟩

/-- C05, malformed text is rejected: if reading a string succeeds and the input is still good, then
what was read is a quote, a well-formed string body (legal escapes only, no raw control characters, no
lone high surrogate) denoting the result, and a quote. (`codePair` is the code's reading of surrogate pairs,
see C04.) -/
theorem C05_only_well_formed_accepted (l l' : Lexer) (v : Bytes) (hc : l.convertBackSlash = true)
    (hg : l.inp.good = true) (h : l.getStringInto = .ok (v, l')) (hg' : l'.inp.good = true) :
    ∃ body, l.inp.rest = 0x22 :: body ++ 0x22 :: l'.inp.rest ∧ Body codePair body v := by
  cases hr : l.inp.rest with
  | nil =>
    unfold Lexer.getStringInto at h
    have : l.inp.get = (EOFv, l.inp) := by
      unfold StrIn.get
      rw [if_neg]
      have := congrArg List.length hr
      simp [StrIn.rest] at this
      omega
    rw [this] at h
    simp [toChar, EOFv] at h
  | cons c t =>
    by_cases hq : c = 0x22
    · subst hq
      cases hsp : splitQuote false t with
      | none =>
        rcases getStringInto_none l t hg hr hsp with h1 | ⟨v1, h1⟩
        · rw [h1] at h; cases h
        · rw [h1] at h
          cases h
          simp at hg'
      | some p =>
        obtain ⟨body, post⟩ := p
        have hf := getStringInto_found l _ _ _ hg hr hsp
        rw [hf, if_pos hc, unescapeInPlace_eq] at h
        cases hu : unesc body with
        | throw e => rw [hu] at h; cases h
        | ub => rw [hu] at h; cases h
        | ok o =>
          rw [hu] at h
          cases h
          have he := splitQuote_eq hsp
          refine ⟨body, ?_, unesc_ok_body _ _ _ post (Nat.le_refl _) (splitQuote_suffix hsp post) hu⟩
          have : ({ l.inp with pos := l.inp.pos + (body.length + 2), good := true } : StrIn).rest = post := by
            unfold StrIn.rest at hr ⊢
            simp only
            rw [← List.drop_drop, hr, he]
            simp
          simp only [this, he, List.cons_append]
    · obtain ⟨hget, _⟩ := get_cons hg hr
      unfold Lexer.getStringInto at h
      rw [hget] at h
      simp [toChar_sext, hq] at h

/-- C05, the literal is not closed: then the call throws or leaves the input failed. -/
theorem C05_unterminated_fails (l l' : Lexer) (v t : Bytes) (hg : l.inp.good = true)
    (hr : l.inp.rest = 0x22 :: t) (hq : ∀ a b, t ≠ a ++ 0x22 :: b)
    (h : l.getStringInto = .ok (v, l')) : l'.inp.good = false := by
  have hsp : splitQuote false t = none := by
    cases hs : splitQuote false t with
    | none => rfl
    | some p => exact absurd (splitQuote_eq hs) (hq _ _)
  rcases getStringInto_none l t hg hr hsp with h1 | ⟨v1, h1⟩
  · rw [h1] at h; cases h
  · rw [h1] at h; cases h; rfl

/-- concrete rejected bodies: a cut off escape, a cut off `\u`, an unknown escape, a raw newline, a lone
high surrogate. -/
example : unescapeInPlace b!"ab\\" = throwStd ∧ unescapeInPlace b!"\\u12" = throwStd ∧
    unescapeInPlace b!"\\q" = throwStd ∧ unescapeInPlace b!"a\nb" = throwStd ∧
    unescapeInPlace b!"\\uD800x" = throwStd := by decide

/-- C06. Decoding a buffer onto itself gives what decoding it into separate storage gives, success or
exception alike: no byte is overwritten before it has been read. -/
theorem C06_in_place_is_fresh (t : Bytes) : unescapeInPlace t = unescapeFresh t := by
  rw [unescapeInPlace_eq, unescapeFresh_eq]

example : unescapeInPlace b!"\\u20AC\\n!" = .ok [0xE2, 0x82, 0xAC, 0x0A, 0x21] := by decide

/-- C07. Whenever the reading iterator accepts a body, the push-back iterator accepts it too and
collects the same bytes, whatever the container held before; no escape is left pending. -/
theorem C07_decoders_agree (t o before : Bytes) (h : unescapeInPlace t = .ok o) :
    ∃ s, UPB.run { UPB.init with cont := before } t = .ok s ∧ s.cont = before ++ o ∧
      s.lastWasSlash = false ∧ s.unicodeCount = 0 := by
  rw [unescapeInPlace_eq] at h
  obtain ⟨u, hu⟩ := run_unesc _ t o (Nat.le_refl _) h before 0
  exact ⟨_, hu, rfl, rfl, rfl⟩

example : unescapeInPlace b!"x\\uD83D\\uDE00\\\\" = .ok [0x78, 0xF0, 0x9F, 0x98, 0x80, 0x5C] := by decide

end Thors.Props
