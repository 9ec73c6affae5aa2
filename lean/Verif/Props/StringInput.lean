import Verif.Proofs.JsonScan
import Verif.Proofs.JsonString2
import Verif.Model.JsonParser
/-
Property C45: reading from a string stays inside the string.
-/
namespace Thors.Props
open Thors Spec StrIn

/-- C45, the primitives. From a position inside the string (or at its end), every reading primitive is
defined, what it delivers is a piece of the string at that position, and it leaves the position inside the
string, at its end, or one past it. -/
theorem C45_primitives_inside (s : StrIn) (h : s.pos ≤ s.data.length) :
    (∀ n, ∃ got g s', s.read n = .ok (got, g, s') ∧ got <+: s.rest ∧ s'.pos = s.pos + got.length ∧ s'.pos ≤ s.data.length ∧ s'.data = s.data) ∧
    (∀ d, ∃ got g s', s.readTo d = .ok (got, g, s') ∧ got <+: s.rest ∧ s'.pos = s.pos + got.length + 1 ∧ s'.pos ≤ s.data.length + 1 ∧ s'.data = s.data) ∧
    (∀ k, ∃ r s', s.readInt k = .ok (r, s') ∧ s.pos ≤ s'.pos ∧ s'.pos ≤ s.data.length ∧ s'.data = s.data) ∧
    (s.get = (EOFv, s) ∨ ∃ c, s.data[s.pos]? = some c ∧ s.get = (sext c, { s with pos := s.pos + 1 }) ∧ s.pos + 1 ≤ s.data.length) ∧
    (s.peek = EOFv ∨ ∃ c, s.data[s.pos]? = some c ∧ s.peek = sext c) ∧
    (s.readChar.2.pos ≤ s.data.length + 1 ∧ (s.readChar.2.pos ≤ s.data.length → s.data[s.readChar.2.pos - 1]? = some s.readChar.1)) := by
  have hd : ∀ {d : Bytes} {p : Nat}, p < d.length → d[p]? = some (d.getD p 0) := by
    intro d p hp
    rw [List.getD_eq_getElem?_getD, List.getElem?_eq_getElem hp]; rfl
  have hpre : ∀ (n : Nat) (l : Bytes), l.take n <+: l := fun n l => List.take_prefix n l
  refine ⟨fun n => ?_, fun d => ?_, fun k => ?_, ?_, ?_, ?_⟩
  · unfold StrIn.read
    rw [if_neg (by omega)]
    refine ⟨_, _, _, rfl, hpre _ _, rfl, ?_, rfl⟩
    simp only [List.length_take, List.length_drop]
    omega
  · unfold StrIn.readTo
    rw [if_neg (by omega)]
    have hle := upTo_le d (s.data.drop s.pos)
    simp only [List.length_drop] at hle
    refine ⟨_, _, _, rfl, hpre _ _, ?_, ?_, rfl⟩
    · simp only [List.length_take, List.length_drop]; omega
    · simp only; omega
  · have hdp : ∀ t : Bytes, (digitPrefix t).length ≤ t.length := fun t => (List.takeWhile_sublist _).length_le
    have hfc : ∀ (t : Bytes) (n : Nat), (fromChars k t = .outOfRange n ∨ ∃ i, fromChars k t = .value n i) → n ≤ t.length := by
      intro t n hh
      cases t with
      | nil => simp [fromChars] at hh
      | cons c cs =>
        have h1 := hdp cs
        have h2 := hdp (c :: cs)
        simp only [List.length_cons] at h2
        unfold fromChars at hh
        simp only at hh
        split at hh
        · split at hh
          · simp at hh
          · split at hh <;> simp at hh <;> simp only [List.length_cons] <;> omega
        · split at hh
          · simp at hh
          · split at hh <;> simp at hh <;> simp only [List.length_cons] <;> omega
    have := hfc (s.data.drop s.pos)
    unfold StrIn.readInt
    rw [if_neg (by omega)]
    simp only [List.length_drop] at this
    cases hf : fromChars k (s.data.drop s.pos) with
    | invalid => exact ⟨_, _, rfl, by omega, h, rfl⟩
    | outOfRange n =>
      have := this n (.inl hf)
      exact ⟨_, _, rfl, by simp, by simp only; omega, rfl⟩
    | value n i =>
      have := this n (.inr ⟨i, hf⟩)
      exact ⟨_, _, rfl, by simp, by simp only; omega, rfl⟩
  · unfold StrIn.get
    split
    · rename_i hc
      exact .inr ⟨_, hd hc.2, rfl, hc.2⟩
    · exact .inl rfl
  · unfold StrIn.peek
    split
    · rename_i hc
      exact .inr ⟨_, hd hc, rfl⟩
    · exact .inl rfl
  · have hsp : ∀ t : Bytes, spaces t ≤ t.length := by
      intro t
      induction t with
      | nil => simp [spaces]
      | cons c t ih => simp only [spaces, List.length_cons]; split <;> omega
    have := hsp (s.data.drop s.pos)
    simp only [List.length_drop] at this
    unfold StrIn.readChar
    rw [if_pos h]
    simp only
    refine ⟨by omega, fun hh => ?_⟩
    rw [if_pos (by omega)]
    simp only [Nat.add_one_sub_one]
    exact hd (by omega)

/-- C45, from any state at all, reachable or not: when a read answers, what it answered lies inside the string, and
a read of at least one byte from behind the end does not answer (`ub`: the copy runs outside the string). -/
theorem C45_answers_inside (s : StrIn) (n : Nat) (got : Bytes) (g : Bool) (s' : StrIn) (h : s.read n = .ok (got, g, s')) :
    got <+: s.data.drop s.pos ∧ got.length ≤ n ∧ s'.data = s.data ∧ s'.pos = s.pos + got.length ∧ (0 < n → s.pos ≤ s.data.length) := by
  unfold StrIn.read at h
  split at h
  · cases h
  · rename_i hn
    simp only [Res.ok.injEq, Prod.mk.injEq] at h
    obtain ⟨rfl, -, rfl⟩ := h
    exact ⟨List.take_prefix _ _, List.length_take_le _ _, rfl, rfl, by omega⟩

/-- non-vacuity: the last two of three bytes. -/
example : (⟨b!"abc", 1, true⟩ : StrIn).read 5 = .ok (b!"bc", true, ⟨b!"abc", 3, true⟩) ∧ (⟨b!"abc", 4, true⟩ : StrIn).read 1 = .ub := by decide

/-- C45, `get` followed by `unget` restores the state (if a character was there). -/
theorem C45_get_unget (s : StrIn) (hg : s.good = true) (h : s.pos < s.data.length) : s.get.2.unget = s := by
  have : s.rest = s.data[s.pos] :: s.data.drop (s.pos + 1) := by
    unfold StrIn.rest; exact List.drop_eq_getElem_cons h
  obtain ⟨s', e, -, hu, -⟩ := at_get (s := s) ⟨this, hg, by omega⟩
  rw [e]; exact hu

theorem scanQuote_ne_ub (ctl : Bool) : ∀ (fuel : Nat) (s : StrIn) (last : Byte) (acc : Bytes), s.data.length < fuel + s.pos →
    0 < fuel → Lexer.scanQuote ctl fuel s last acc ≠ .ub := by
  intro fuel
  induction fuel with
  | zero => intro s last acc _ h; omega
  | succ f ih =>
    intro s last acc hf _
    unfold Lexer.scanQuote
    by_cases hc : s.good ∧ s.pos < s.data.length
    · have hg : s.get = (sext (s.data.getD s.pos 0), { s with pos := s.pos + 1 }) := by unfold StrIn.get; rw [if_pos hc]
      rw [hg]
      simp only
      split
      · split
        · simp [throwStd]
        · exact ih _ _ _ (by simp only; omega) (by omega)
      · split <;> simp [throwStd]
    · have hg : s.get = (EOFv, s) := by unfold StrIn.get; rw [if_neg hc]
      rw [hg]
      simp [throwStd]

private theorem digitLoop_ne_ub : ∀ (fuel : Nat) (s : StrIn) (next : Int) (buf : Bytes), s.data.length + 1 < fuel + s.pos → 1 < fuel →
    Lexer.digitLoop fuel s next buf ≠ .ub := by
  intro fuel
  induction fuel with
  | zero => intro s next buf _ h; omega
  | succ f ih =>
    intro s next buf hf h1
    unfold Lexer.digitLoop
    split
    · by_cases hc : s.good ∧ s.pos < s.data.length
      · have hg : s.get = (sext (s.data.getD s.pos 0), { s with pos := s.pos + 1 }) := by unfold StrIn.get; rw [if_pos hc]
        rw [hg]
        simp only
        exact ih _ _ _ (by simp only; omega) (by omega)
      · have hg : s.get = (EOFv, s) := by unfold StrIn.get; rw [if_neg hc]
        rw [hg]
        simp only
        obtain ⟨f', rfl⟩ : ∃ f', f = f' + 1 := ⟨f - 1, by omega⟩
        unfold Lexer.digitLoop
        rw [if_neg (by decide)]
        simp
    · simp

private theorem readDigits_ne_ub (s : StrIn) (next : Int) (buf : Bytes) : Lexer.readDigits s next buf ≠ .ub := by
  unfold Lexer.readDigits
  split
  · simp [throwStd]
  · exact digitLoop_ne_ub _ _ _ _ (by omega) (by omega)

private theorem bind_ne {α β : Type} {r : Res α} {f : α → Res β} (hr : r ≠ .ub) (hf : ∀ a, f a ≠ .ub) : (r >>= f) ≠ .ub := by
  cases r with
  | ok a => exact hf a
  | throw e => exact fun h => by cases h
  | ub => exact absurd rfl hr

theorem readNumber_ne_ub (s : StrIn) : Lexer.readNumber s ≠ .ub := by
  have hd := readDigits_ne_ub
  unfold Lexer.readNumber
  simp only
  refine bind_ne ?_ fun a => bind_ne ?_ fun b => bind_ne ?_ fun c => bind_ne ?_ fun d => ?_
  · split
    · split <;> simp [throwStd]
    · simp
  · split
    · simp
    · exact hd _ _ _
  · split
    · split
      · simp [throwStd]
      · exact hd _ _ _
    · simp
  · split
    · split
      · simp [throwStd]
      · split
        · split
          · simp [throwStd]
          · exact hd _ _ _
        · exact hd _ _ _
    · simp
  · split <;> simp [Res.pure_eq]

private theorem yylex_pos (l : Lexer) : l.yylex.2.inp.pos ≤ l.yylex.2.inp.data.length ∧ l.yylex.2.inp.data = l.inp.data ∧ l.yylex.2.lastToken = some l.yylex.1 ∧
    l.yylex.2.inp.good = true := by
  have hsp : ∀ t : Bytes, spaces t ≤ t.length := by
    intro t
    induction t with
    | nil => simp [spaces]
    | cons c t ih => simp only [spaces, List.length_cons]; split <;> omega
  have hsp' := hsp (l.inp.data.drop l.inp.pos)
  simp only [List.length_drop] at hsp'
  unfold Lexer.yylex peekNextNonSpace StrIn.readChar
  generalize hp : (if l.inp.pos ≤ l.inp.data.length then l.inp.pos + spaces (l.inp.data.drop l.inp.pos) else l.inp.data.length) = p
  have hple : p ≤ l.inp.data.length := by subst hp; split <;> omega
  simp only [true_and, and_true]
  by_cases hlt : p < l.inp.data.length
  · rw [if_pos hlt]
    by_cases hpu : isPunct (l.inp.data.getD p 0) = true
    · rw [if_pos hpu]; exact ⟨by simp only; omega, rfl, by simp only [decide_eq_true_eq]; omega⟩
    · rw [if_neg hpu]
      exact ⟨by simp only [StrIn.unget]; rw [if_neg (by omega)]; omega, rfl,
        by simp only [StrIn.unget]; rw [if_neg (by omega)]; simp only [decide_eq_true_eq]; omega⟩
  · rw [if_neg hlt, if_neg (by decide)]
    exact ⟨by simp only [StrIn.unget]; rw [if_neg (by omega)]; omega, rfl,
      by simp only [StrIn.unget]; rw [if_neg (by omega)]; simp only [decide_eq_true_eq]; omega⟩

private theorem lexStep_pos : ∀ (fuel : Nat) (s s1 : JsonP) (t : Tok), s.lexStep fuel = .ok (t, s1) →
    s1.lex.inp.pos ≤ s1.lex.inp.data.length ∧ s1.lex.inp.data = s.lex.inp.data ∧ s1.lex.lastToken ≠ none ∧
    s1.lex.inp.good = true := by
  intro fuel
  induction fuel with
  | zero => intro s s1 t h; cases h
  | succ f ih =>
    intro s s1 t h
    unfold JsonP.lexStep at h
    obtain ⟨h1, h2, h3, h4⟩ := yylex_pos s.lex
    rcases hy : s.lex.yylex with ⟨x, l⟩
    rw [hy] at h h1 h2 h3 h4
    simp only at h h1 h2 h3 h4
    cases hf : s.ctl.feed x with
    | throw e => rw [hf] at h; cases h
    | ub => rw [hf] at h; cases h
    | ok a =>
      obtain ⟨o, c⟩ := a
      rw [hf] at h
      cases o with
      | some tok =>
        simp only [Res.ok_bind, Res.pure_eq, Res.ok.injEq, Prod.mk.injEq] at h
        obtain ⟨-, rfl⟩ := h
        exact ⟨h1, h2, by simp [h3], h4⟩
      | none =>
        simp only [Res.ok_bind] at h
        have := ih _ _ _ h
        exact ⟨this.1, this.2.1.trans h2, this.2.2⟩

/-- C45, the JSON reader. Whatever the text, the history and the state of the reader: after it has announced
a key or a value, the position is inside the string or at its end, and none of the ways of reading or skipping
that key or value goes outside the string or loops (`ub`); for integers the only remaining `ub` is C09's
out-of-range literal. -/
theorem C45_json_reader_inside (s s1 : JsonP) (t : Tok) (h : s.getNextToken = .ok (t, s1)) (ht : t = .Key ∨ t = .Value) :
    s1.lex.inp.data = s.lex.inp.data ∧ s1.lex.inp.pos ≤ s1.lex.inp.data.length ∧
    s1.getKey ≠ .ub ∧ s1.getStr ≠ .ub ∧ s1.getBool ≠ .ub ∧ s1.ignoreDataValue ≠ .ub ∧ s1.getRaw ≠ .ub ∧
    (∀ k, s1.getInt k = .ub → ∃ n, fromChars k s1.lex.inp.rest = .outOfRange n) := by
  have hl : s1.lex.inp.pos ≤ s1.lex.inp.data.length ∧ s1.lex.inp.data = s.lex.inp.data ∧ s1.lex.lastToken ≠ none ∧
      s1.lex.inp.good = true := by
    unfold JsonP.getNextToken at h
    split at h
    · injection h with h; injection h with h1 h2; subst h1; simp at ht
    · split at h
      · injection h with h; injection h with h1 h2; subst h1; simp at ht
      · split at h
        · injection h with h; injection h with h1 h2; subst h1; simp at ht
        · exact lexStep_pos _ _ _ _ h
  obtain ⟨h1, h2, h3, hg⟩ := hl
  have hfix : ∀ check, s1.lex.checkFixed check ≠ .ub := by
    intro check
    unfold Lexer.checkFixed StrIn.read
    simp only
    rw [if_neg (by omega)]
    simp only [Res.ok_bind]
    split <;> simp [throwStd, Res.pure_eq]
  refine ⟨h2, h1, ?_, ?_, ?_, ?_, ?_, ?_⟩
  · unfold JsonP.getKey Lexer.getString
    exact bind_ne (bind_ne (getStringInto_ne_ub _) (by simp [Res.pure_eq])) (by simp [Res.pure_eq])
  · unfold JsonP.getStr
    exact bind_ne (getStringInto_ne_ub _) (by simp [Res.pure_eq])
  · unfold JsonP.getBool
    refine bind_ne ?_ (by simp [Res.pure_eq])
    unfold Lexer.getLastBool
    cases hx : s1.lex.lastToken with
    | none => exact absurd hx h3
    | some x => cases x <;> simp only <;> first | (intro hh; cases hh; done) | exact bind_ne (hfix _) (by simp [Res.pure_eq])
  · unfold JsonP.ignoreDataValue
    refine bind_ne ?_ (by simp [Res.pure_eq])
    unfold Lexer.ignoreRawValue
    cases hx : s1.lex.lastToken with
    | none => exact absurd hx h3
    | some x =>
      cases x <;> simp only <;> first
        | (intro hh; cases hh; done)
        | exact bind_ne (readNumber_ne_ub _) (by simp [Res.pure_eq])
        | exact bind_ne (scanQuote_ne_ub _ _ _ _ _ (by omega) (by omega)) (by simp [Res.pure_eq])
  · unfold JsonP.getRaw
    refine bind_ne ?_ (by simp [Res.pure_eq])
    unfold Lexer.getRawString
    cases hx : s1.lex.lastToken with
    | none => exact absurd hx h3
    | some x =>
      cases x <;> simp only <;> first
        | (intro hh; cases hh; done)
        | exact bind_ne (readNumber_ne_ub _) (by simp [Res.pure_eq])
        | exact bind_ne (scanQuote_ne_ub _ _ _ _ _ (by omega) (by omega)) (by simp [Res.pure_eq])
  · intro k hk
    have hz : checkZero s1.lex.inp = throwStd ∨ checkZero s1.lex.inp = .ok s1.lex.inp := by
      by_cases hne : s1.lex.inp.rest = []
      · right
        unfold checkZero
        rw [peek_nil hne, if_neg (by decide)]
      · rw [checkZero_eq hg hne]
        split
        · split
          · left; rfl
          · right; rfl
        · right; rfl
    unfold JsonP.getInt Lexer.scanInt readIntValue at hk
    rcases hz with hz | hz
    · rw [hz] at hk; cases hk
    · rw [hz] at hk
      unfold StrIn.readInt at hk
      rw [Res.ok_bind, if_neg (by omega)] at hk
      unfold StrIn.rest
      cases hf : fromChars k (s1.lex.inp.data.drop s1.lex.inp.pos) with
      | outOfRange n => exact ⟨n, rfl⟩
      | invalid =>
        rw [hf] at hk
        simp only [Res.ok_bind, Res.pure_eq, validateResult] at hk
        simp [throwStd] at hk
      | value n i =>
        rw [hf] at hk
        simp only [Res.ok_bind, Res.pure_eq] at hk
        split at hk
        · cases hk
        · cases hk

/-- Not vacuous: a reader that has announced a value, reading and skipping it. -/
example : ∃ s1 s2 s3, (JsonP.ofBytes b!"  12 ").getNextToken = .ok (.DocStart, s1) ∧ s1.getNextToken = .ok (.Value, s2) ∧
    s2.getInt ⟨32, true⟩ = .ok (12, s3) ∧ s3.lex.inp.pos = 4 := ⟨_, _, _, rfl, rfl, rfl, rfl⟩

/-- Not vacuous for the primitives: reads that stop at the end, and one past it. -/
example : (StrIn.ofBytes b!"abc").read 5 = .ok (b!"abc", true, ⟨b!"abc", 3, true⟩) ∧
    (StrIn.ofBytes b!"abc").readTo 0x22 = .ok (b!"abc", false, ⟨b!"abc", 4, false⟩) := ⟨rfl, rfl⟩

end Thors.Props
