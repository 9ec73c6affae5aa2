import Verif.Proofs.Ends
import Verif.Proofs.JsonJunk
import Verif.Proofs.JsonTrace
import Verif.Props.StringInput
import Verif.Props.JsonTokens
import Verif.Spec.JsonEnds
/-
The JSON parser on a string: its functions end without undefined behaviour, and each takes something from the text.
-/
namespace Thors
open Spec StrIn

namespace JEnds

/-- What is left of the text. -/
def rem (s : StrIn) : Nat := s.data.length - s.pos

theorem rem_later {s s' : StrIn} (h : Later s s') : rem s' ≤ rem s := by
  unfold rem
  rw [h.data]
  rcases h.pos with p | p <;> omega

/-- A scalar of the document starts at the position. -/
def AtScalar (l : Lexer) : Prop :=
  (l.lastToken = some .number ∧ l.inp.pos ≤ l.inp.data.length) ∨
  ((l.lastToken = some .true_ ∨ l.lastToken = some .false_ ∨ l.lastToken = some .null_ ∨ l.lastToken = some .string) ∧ l.inp.pos < l.inp.data.length)

/-- The invariant of the parser. -/
structure I (s : JsonP) : Prop where
  started : s.ctl.started = true
  trace : ∃ xs ts, Trace s.ctl xs ts
  sane : Sane s.lex.inp
  null : s.lex.lastNull = true → s.lex.lastToken = some .null_
  init : s.lex.lastToken = none → s.ctl.currentState = .Init

/-- After a token. -/
structure A (t : Tok) (s : JsonP) : Prop where
  some : s.lex.lastToken ≠ none
  val : t = .Value ∨ t = .Key → AtScalar s.lex

/-- What is left of the text of a parser. -/
def m (s : JsonP) : Nat := rem s.lex.inp

/-- The brackets take one character. -/
def w : Tok → Nat
  | .MapStart | .MapEnd | .ArrayStart | .ArrayEnd => 1
  | _ => 0

/-! ### the lexer -/

theorem get_some {s : StrIn} (h : toChar s.get.1 = 0x22) (hs : Sane s) : rem s.get.2 < rem s ∧ Sane s.get.2 := by
  unfold StrIn.get at h ⊢
  split
  · next hh =>
    refine ⟨?_, fun _ => hh.1⟩
    unfold rem
    dsimp only
    omega
  · next hh =>
    rw [if_neg hh] at h
    have : toChar EOFv = 0x22 := h
    exact absurd this (by decide)

theorem getStringInto_less {l : Lexer} (hs : Sane l.inp) :
    Safe (fun x => Later l.inp x.2.inp ∧ x.2.lastToken = l.lastToken ∧ x.2.lastNull = l.lastNull ∧ rem x.2.inp < rem l.inp) l.getStringInto := by
  refine (Safe.of (later_getStringInto hs) (getStringInto_ne_ub l)).and ?_
  unfold Lexer.getStringInto
  have hl := get_some (s := l.inp) (hs := hs)
  dsimp only
  split
  · exact .throwStd
  next hq =>
  have hl := hl (by simpa using hq)
  refine (later_readTo 0x22).bind ?_
  rintro ⟨v, g, s1⟩ hx
  dsimp only at hx ⊢
  refine Yields.bind (P := fun x => Later l.inp.get.2 x.2) ?_ ?_
  · split
    · exact (later_readMore _ _ _).mono fun y hy => hx.trans hy
    · exact .ok hx
  · rintro ⟨v, s2⟩ hy
    dsimp only at hy ⊢
    refine Yields.bind (P := fun _ => True) (fun _ _ => trivial) fun _ _ => .ok ⟨rfl, rfl, ?_⟩
    have := rem_later hy
    dsimp only
    omega

theorem checkZero_same {s : StrIn} (h : Sane s) : Yields (fun s' => s'.pos = s.pos ∧ s'.data = s.data ∧ Sane s') (checkZero s) := by
  unfold checkZero
  split
  · next hp =>
    have hlt : s.pos < s.data.length := by
      unfold StrIn.peek at hp
      split at hp
      · assumption
      · exact absurd hp (by decide)
    dsimp only
    split
    · exact .throwStd
    · refine .ok ?_
      unfold StrIn.get
      rw [if_pos ⟨h hlt, hlt⟩]
      unfold StrIn.unget
      simp only [Nat.add_one_ne_zero, if_false, Nat.add_sub_cancel]
      exact ⟨trivial, trivial, fun _ => by simp; omega⟩
  · exact .ok ⟨rfl, rfl, h⟩

theorem checkZero_ne_ub (s : StrIn) : checkZero s ≠ .ub := by
  unfold checkZero
  split
  · dsimp only
    split <;> simp [throwStd]
  · simp

theorem fwd_less {s : StrIn} {n : Nat} (hp : s.pos < s.data.length) (hn : n ≠ 0) :
    rem { s with pos := s.pos + n, good := s.pos + n ≤ s.data.length } < rem s := by
  unfold rem
  dsimp only
  omega

theorem readIntValue_less {s : StrIn} (k : IntKind) (hs : Sane s) (hp : s.pos ≤ s.data.length) :
    Safe (fun x => x.1.1 = true → Later s x.2 ∧ rem x.2 < rem s) (readIntValue s k) := by
  unfold readIntValue
  refine (Safe.of ((later_checkZero hs).and (checkZero_same hs)) (checkZero_ne_ub s)).bind ?_
  rintro s1 ⟨hl, h1, h2, h3⟩
  refine Safe.bind (P := fun x => x.1.1 = true → Later s1 x.2 ∧ rem x.2 < rem s1) ?_ ?_
  · unfold StrIn.readInt
    rw [if_neg (by rw [h2]; omega)]
    split
    · exact .ok (fun h => by simp at h)
    all_goals
      next n hf =>
      refine .ok fun h => ⟨later_fwd _, fwd_less ?_ (by simpa using h)⟩
      apply Nat.lt_of_not_le
      intro hge
      rw [List.drop_eq_nil_of_le hge] at hf
      simp [fromChars] at hf
  · rintro ⟨⟨ok, v⟩, s2⟩ h
    dsimp only at h ⊢
    refine .ok fun hv => ?_
    have : ok = true := by unfold validateResult at hv; simp at hv; exact hv.1
    have := h this
    refine ⟨hl.trans this.1, ?_⟩
    have := this.2
    have := rem_later hl
    dsimp only
    omega

theorem readFltValue_less {s : StrIn} (f : FKind) (hs : Sane s) (hp : s.pos ≤ s.data.length) :
    Safe (fun x => x.1.1 = true → Later s x.2 ∧ rem x.2 < rem s) (readFltValue s f) := by
  unfold readFltValue
  refine (Safe.of ((later_checkZero hs).and (checkZero_same hs)) (checkZero_ne_ub s)).bind ?_
  rintro s1 ⟨hl, h1, h2, h3⟩
  unfold StrIn.readFlt
  rw [if_neg (by rw [h2]; omega)]
  have hrem := rem_later hl
  split
  · exact .ok (fun h => by simp at h)
  all_goals
    next n hf =>
    refine .ok fun h => ⟨hl.trans (later_fwd _), Nat.lt_of_lt_of_le (fwd_less ?_ (by simpa using h)) hrem⟩
    apply Nat.lt_of_not_le
    intro hge
    rw [List.drop_eq_nil_of_le hge] at hf
    simp [fromCharsF] at hf

theorem checkFixed_less {l : Lexer} (c : Bytes) (hc : c ≠ []) (hp : l.inp.pos < l.inp.data.length) :
    Safe (fun x => Later l.inp x.inp ∧ x.lastToken = l.lastToken ∧ x.lastNull = l.lastNull ∧ rem x.inp < rem l.inp) (l.checkFixed c) := by
  unfold Lexer.checkFixed
  dsimp only
  refine Safe.bind (P := fun x => Later l.inp x.2.2 ∧ rem x.2.2 < rem l.inp) ?_ ?_
  · refine Safe.of ((later_read _).and ?_) ?_
    · unfold StrIn.read
      rw [if_neg (by omega)]
      refine .ok ?_
      have : 0 < c.length := List.length_pos_iff.2 hc
      unfold rem
      simp only [List.length_take, List.length_drop]
      omega
    · unfold StrIn.read
      rw [if_neg (by omega)]
      simp
  · rintro ⟨got, g, s⟩ hx
    dsimp only at hx ⊢
    split
    · exact .ok ⟨hx.1, rfl, rfl, hx.2⟩
    · exact .throwStd


theorem got_digits_more {d : Bytes} {p : Nat} {s : StrIn} {next : Int} (buf : Bytes) (h : Got d p next s) :
    Yields (fun x => Got d (p + 1) x.1 x.2.2) (Lexer.readDigits s next buf) := by
  unfold Lexer.readDigits
  split
  · exact .throwStd
  next hd =>
  have hd : Lexer.isDigitI next = true := by simpa using hd
  have hne : next ≠ EOFv := by rintro rfl; exact absurd hd (by decide)
  unfold Lexer.digitLoop
  rw [if_pos hd]
  dsimp only
  refine got_digitLoop _ _ _ _ ?_
  have g : Got d (p + 1) s.get.1 s.get.2 := got_get h.data (h.got hne) h.sane
  exact ⟨g.data, g.pos, fun hn => g.got (by rintro e; rw [e] at hn; exact hn (by decide)), g.sane⟩

theorem readNumber_less {s : StrIn} (h : Sane s) : Safe (fun x => Later s x.2 ∧ rem x.2 < rem s) (Lexer.readNumber s) := by
  refine Safe.of ((later_readNumber h).and ?_) (Props.readNumber_ne_ub s)
  by_cases hp : s.good = true ∧ s.pos < s.data.length
  · unfold Lexer.readNumber
    have g0 : Got s.data s.pos s.get.1 s.get.2 := got_get rfl (Nat.le_refl _) h
    generalize s.get = g at g0
    obtain ⟨n, s0⟩ := g
    dsimp only at g0 ⊢
    refine Yields.bind (P := fun (x : Int × Bytes × StrIn) => Got s.data s.pos x.1 x.2.2) ?_ ?_
    · split
      · split
        · exact .throwStd
        · exact .ok g0.get
      · exact .ok g0
    rintro ⟨n, b, s0⟩ g0
    dsimp only at g0 ⊢
    refine Yields.bind (P := fun (x : Int × Bytes × StrIn) => Got s.data (s.pos + 1) x.1 x.2.2) ?_ ?_
    · split
      · next hn => exact .ok (got_get g0.data (g0.got (by rw [hn]; decide)) g0.sane)
      · exact got_digits_more _ g0
    clear g0
    rintro ⟨n, b, s0⟩ g0
    dsimp only at g0 ⊢
    refine Yields.bind (P := fun (x : Int × Bytes × StrIn) => Got s.data (s.pos + 1) x.1 x.2.2) ?_ ?_
    · split
      · split
        · exact .throwStd
        · exact got_readDigits _ g0.get
      · exact .ok g0
    clear g0
    rintro ⟨n, b, s0⟩ g0
    dsimp only at g0 ⊢
    refine Yields.bind (P := fun (x : Int × Bytes × StrIn) => Got s.data (s.pos + 1) x.1 x.2.2) ?_ ?_
    · split
      · split
        · exact .throwStd
        split
        · split
          · exact .throwStd
          · exact got_readDigits _ g0.get.get
        · exact got_readDigits _ g0.get
      · exact .ok g0
    clear g0
    rintro ⟨n, b, s0⟩ g0
    dsimp only at g0 ⊢
    have hpos := g0.pos
    have hdat := g0.data
    split
    · next hn =>
      refine .ok ?_
      have := g0.got hn
      unfold StrIn.unget rem
      dsimp only
      rw [if_neg (by omega), hdat]
      omega
    · refine .ok ?_
      unfold rem
      dsimp only
      rw [hdat]
      omega
  · have hg : s.get = (EOFv, s) := by unfold StrIn.get; rw [if_neg hp]
    have : Lexer.readNumber s = throwStd := by
      unfold Lexer.readNumber
      rw [hg]
      rfl
    rw [this]
    exact .throwStd

theorem skipString_less {l : Lexer} (hs : Sane l.inp) (hp : l.inp.pos < l.inp.data.length) (ctl : Bool) :
    Safe (fun x => Later l.inp x.2 ∧ rem x.2 < rem l.inp) (Lexer.scanQuote ctl (l.inp.get.2.data.length + 1) l.inp.get.2 (toChar l.inp.get.1) []) := by
  have hg : l.inp.get = (sext (l.inp.data.getD l.inp.pos 0), { l.inp with pos := l.inp.pos + 1 }) := by
    unfold StrIn.get; rw [if_pos ⟨hs hp, hp⟩]
  have hl := later_get hs
  have hless : rem l.inp.get.2 < rem l.inp := by rw [hg]; unfold rem; dsimp only; omega
  refine Safe.of ?_ ?_
  · refine (later_scanQuote _ _ _ _ _ hl.sane).mono fun x hx => ⟨hl.trans hx, ?_⟩
    have := rem_later hx
    omega
  · exact Props.scanQuote_ne_ub _ _ _ _ _ (by omega) (by omega)

theorem ignoreRaw_less {l : Lexer} (hs : Sane l.inp) (ha : AtScalar l) :
    Safe (fun x => Later l.inp x.inp ∧ x.lastToken = l.lastToken ∧ x.lastNull = l.lastNull ∧ rem x.inp < rem l.inp) l.ignoreRawValue := by
  have fwd : ∀ n, n ≠ 0 → l.inp.pos < l.inp.data.length → rem (l.inp.ignore n) < rem l.inp := fun n hn hp => fwd_less hp hn
  unfold Lexer.ignoreRawValue
  rcases ha with ⟨h, hp⟩ | ⟨h | h | h | h, hp⟩ <;> rw [h] <;> dsimp only
  · exact (readNumber_less hs).bind fun x hx => .ok ⟨hx.1, h.symm ▸ rfl, rfl, hx.2⟩
  · exact .ok ⟨later_ignore _, rfl, rfl, fwd 4 (by decide) hp⟩
  · exact .ok ⟨later_ignore _, rfl, rfl, fwd 5 (by decide) hp⟩
  · exact .ok ⟨later_ignore _, rfl, rfl, fwd 4 (by decide) hp⟩
  · exact (skipString_less hs hp false).bind fun x hx => .ok ⟨hx.1, rfl, rfl, hx.2⟩

theorem ignoreRaw_safe {l : Lexer} (h : l.lastToken ≠ none) : l.ignoreRawValue ≠ .ub := by
  unfold Lexer.ignoreRawValue
  cases hx : l.lastToken with
  | none => exact absurd hx h
  | some x =>
    cases x <;> dsimp only <;> first
      | (intro hh; cases hh; done)
      | exact Res.bind_ne_ub (Props.readNumber_ne_ub _) (fun _ _ => by simp)
      | exact Res.bind_ne_ub (Props.scanQuote_ne_ub _ _ _ _ _ (by omega) (by omega)) (fun _ _ => by simp)

theorem getLastBool_less {l : Lexer} (ha : AtScalar l) :
    Safe (fun x => Later l.inp x.2.inp ∧ x.2.lastToken = l.lastToken ∧ x.2.lastNull = l.lastNull ∧ rem x.2.inp < rem l.inp) l.getLastBool := by
  unfold Lexer.getLastBool
  rcases ha with ⟨h, hp⟩ | ⟨h | h | h | h, hp⟩ <;> rw [h] <;> dsimp only
  · exact .throwStd
  · exact (checkFixed_less _ (by decide) hp).bind fun x hx => .ok (h ▸ hx)
  · exact (checkFixed_less _ (by decide) hp).bind fun x hx => .ok (h ▸ hx)
  · exact .throwStd
  · exact .throwStd

/-! ### the next token -/

/-- The kinds of lexemes. -/
def scalarLexeme : Lexeme → Bool
  | .true_ | .false_ | .null_ | .string | .number => true
  | _ => false

theorem peek_left (i : StrIn) : (isPunct (peekNextNonSpace i).1 = true → rem (peekNextNonSpace i).2 + 1 ≤ rem i) ∧
    (isPunct (peekNextNonSpace i).1 = false → (peekNextNonSpace i).2.pos ≤ (peekNextNonSpace i).2.data.length ∧
      ((peekNextNonSpace i).2.pos < (peekNextNonSpace i).2.data.length ∨ (peekNextNonSpace i).1 = 0xFF)) := by
  have hsp : ∀ t : Bytes, spaces t ≤ t.length := by
    intro t
    induction t with
    | nil => simp [spaces]
    | cons c t ih => simp only [spaces, List.length_cons]; split <;> omega
  have hsp' := hsp (i.data.drop i.pos)
  simp only [List.length_drop] at hsp'
  unfold peekNextNonSpace StrIn.readChar
  generalize hp : (if i.pos ≤ i.data.length then i.pos + spaces (i.data.drop i.pos) else i.data.length) = p
  have hple : p ≤ i.data.length := by subst hp; split <;> omega
  have hpos : i.pos ≤ p ∨ i.data.length ≤ p := by subst hp; split <;> omega
  dsimp only
  generalize hc : (if p < i.data.length then i.data.getD p 0 else 0xFF) = c
  by_cases hpu : isPunct c = true
  · rw [if_pos hpu]
    dsimp only
    refine ⟨fun _ => ?_, fun h => by rw [hpu] at h; cases h⟩
    have : p < i.data.length := by
      apply Nat.lt_of_not_le
      intro hge
      rw [if_neg (by omega)] at hc
      subst hc
      exact absurd hpu (by decide)
    unfold rem
    dsimp only
    omega
  · rw [if_neg hpu]
    dsimp only
    refine ⟨fun h => absurd h hpu, fun _ => ?_⟩
    unfold StrIn.unget
    dsimp only
    rw [if_neg (by omega)]
    refine ⟨by omega, ?_⟩
    by_cases hlt : p < i.data.length
    · left; omega
    · right; rw [if_neg hlt] at hc; exact hc.symm

theorem yylex_left (l : Lexer) : l.yylex.2.lastToken = some l.yylex.1 ∧ l.yylex.2.lastNull = decide (l.yylex.1 = .null_) ∧
    (scalarLexeme l.yylex.1 = false → rem l.yylex.2.inp + 1 ≤ rem l.inp) ∧ (scalarLexeme l.yylex.1 = true → AtScalar l.yylex.2) := by
  have hcl : ∀ c : Byte, scalarLexeme (Lexer.classify c) = !isPunct c := forall_byte (by decide +kernel)
  have hnum : ∀ c : Byte, scalarLexeme (Lexer.classify c) = true → Lexer.classify c ≠ .number →
      (Lexer.classify c = .true_ ∨ Lexer.classify c = .false_ ∨ Lexer.classify c = .null_ ∨ Lexer.classify c = .string) := forall_byte (by decide +kernel)
  have hy1 : l.yylex.1 = Lexer.classify (peekNextNonSpace l.inp).1 := rfl
  have hy2 : l.yylex.2.inp = (peekNextNonSpace l.inp).2 := rfl
  have hy3 : l.yylex.2.lastToken = some (Lexer.classify (peekNextNonSpace l.inp).1) := rfl
  obtain ⟨h1, h2⟩ := peek_left l.inp
  refine ⟨rfl, rfl, fun h => ?_, fun h => ?_⟩
  · rw [hy1, hcl] at h
    rw [hy2]
    exact h1 (by simpa using h)
  · rw [hy1] at h
    have h' := h
    rw [hcl] at h'
    have h2 := h2 (by simpa using h')
    unfold AtScalar
    rw [hy2, hy3]
    by_cases hn : Lexer.classify (peekNextNonSpace l.inp).1 = .number
    · left; exact ⟨by rw [hn], h2.1⟩
    · right
      refine ⟨by simpa using hnum _ h hn, ?_⟩
      rcases h2.2 with h3 | h3
      · exact h3
      · rw [h3] at hn; exact absurd rfl hn

theorem feed_some {c c' : JCtl} {x : Lexeme} {t : Tok} (h : c.feed x = .ok (some t, c')) :
    (w t ≠ 0 → scalarLexeme x = false) ∧ (t = .Value ∨ t = .Key → scalarLexeme x = true) ∧ w t ≤ 1 := by
  have key : ∀ st : JState, ((stateTable st x = .OpenM ∨ stateTable st x = .OpenA ∨ stateTable st x = .CloseM ∨ stateTable st x = .CloseA) → scalarLexeme x = false) ∧
      ((stateTable st x = .Key ∨ stateTable st x = .ValueM ∨ stateTable st x = .ValueA ∨ stateTable st x = .ValueD) → scalarLexeme x = true) := by
    intro st
    cases st <;> cases x <;> decide
  have hk := key c.currentState
  unfold JCtl.feed at h
  cases hs : stateTable c.currentState x <;> rw [hs] at h hk <;> dsimp only at h <;> try (cases h; done)
  case CloseM =>
    cases hp : c.parrentState <;> rw [hp] at h <;> cases h
    exact ⟨fun _ => hk.1 (by simp), fun h => by simp at h, by decide⟩
  case CloseA =>
    cases hp : c.parrentState <;> rw [hp] at h <;> cases h
    exact ⟨fun _ => hk.1 (by simp), fun h => by simp at h, by decide⟩
  all_goals cases h
  all_goals first
    | exact ⟨fun h => absurd rfl h, fun h => absurd h (by decide), by decide⟩
    | exact ⟨fun h => absurd rfl h, fun _ => hk.2 (by decide), by decide⟩
    | exact ⟨fun _ => hk.1 (by decide), fun h => absurd h (by decide), by decide⟩

theorem feed_started {c c' : JCtl} {x : Lexeme} {t : Option Tok} (h : c.feed x = .ok (t, c')) : c'.started = c.started := by
  unfold JCtl.feed at h
  cases hs : stateTable c.currentState x <;> rw [hs] at h <;> dsimp only at h <;> first
    | (cases h; done)
    | (cases h; rfl)
    | (cases hp : c.parrentState <;> rw [hp] at h <;> cases h; rfl)

theorem lexStep_left : ∀ (fuel : Nat) (s s1 : JsonP) (t : Tok), s.lexStep fuel = .ok (t, s1) →
    Later s.lex.inp s1.lex.inp ∧ s1.ctl.started = s.ctl.started ∧ (s1.lex.lastNull = true → s1.lex.lastToken = some .null_) ∧ A t s1 ∧ m s1 + w t ≤ m s
  | 0, _, _, _, h => by cases h
  | f + 1, s, s1, t, h => by
    unfold JsonP.lexStep at h
    obtain ⟨h1, h2, h3, h4⟩ := yylex_left s.lex
    have hl := later_yylex s.lex
    rcases hy : s.lex.yylex with ⟨x, l⟩
    rw [hy] at h h1 h2 h3 h4 hl
    dsimp only at h h1 h2 h3 h4 hl
    cases hf : s.ctl.feed x with
    | throw e => rw [hf] at h; cases h
    | ub => rw [hf] at h; cases h
    | ok a =>
      obtain ⟨o, c⟩ := a
      rw [hf] at h
      have hst := feed_started hf
      cases o with
      | some tok =>
        simp only [Res.ok_bind, Res.pure_eq, Res.ok.injEq, Prod.mk.injEq] at h
        obtain ⟨rfl, rfl⟩ := h
        obtain ⟨f1, f2, f3⟩ := feed_some hf
        refine ⟨hl, hst, ?_, ⟨by simp [h1], fun e => h4 (f2 e)⟩, ?_⟩
        · intro hn
          dsimp only at hn ⊢
          rw [h2] at hn
          rw [h1, of_decide_eq_true hn]
        · have := rem_later hl
          unfold m
          dsimp only
          by_cases hw : w tok = 0
          · omega
          · have := h3 (f1 hw); omega
      | none =>
        simp only [Res.ok_bind] at h
        obtain ⟨g1, g2, g3, g4, g5⟩ := lexStep_left f _ _ _ h
        refine ⟨hl.trans g1, g2.trans hst, g3, g4, ?_⟩
        have := rem_later hl
        unfold m at g5 ⊢
        dsimp only at g5
        omega

theorem next_ends {s : JsonP} (h : I s) : Safe (fun x => I x.2 ∧ A x.1 x.2 ∧ m x.2 + w x.1 ≤ m s) s.getNextToken := by
  obtain ⟨xs, ts, ht⟩ := h.trace
  obtain ⟨t, s1, hn⟩ := Props.C13_no_underflow s.ctl xs ts ht s.lex
  have hn : s.getNextToken = .ok (t, s1) := hn
  have htr : ∃ xs ts, Trace s1.ctl xs ts := ⟨_, _, .next s.lex ht hn⟩
  rw [hn]
  refine .ok ?_
  have hst := h.started
  unfold JsonP.getNextToken at hn
  rw [if_neg (by simp [hst])] at hn
  split at hn
  · next hd =>
    simp only [Res.ok.injEq, Prod.mk.injEq] at hn
    obtain ⟨rfl, rfl⟩ := hn
    have hne : s.lex.lastToken ≠ none := fun e => by have := h.init e; rw [hd] at this; cases this
    exact ⟨⟨hst, htr, h.sane, h.null, fun e => absurd e hne⟩, ⟨hne, fun e => by simp at e⟩, Nat.le_refl _⟩
  · split at hn
    · next hd =>
      simp only [Res.ok.injEq, Prod.mk.injEq] at hn
      obtain ⟨rfl, rfl⟩ := hn
      have hne : s.lex.lastToken ≠ none := fun e => by have := h.init e; rw [hd] at this; cases this
      exact ⟨h, ⟨hne, fun e => by simp at e⟩, Nat.le_refl _⟩
    · obtain ⟨g1, g2, g3, g4, g5⟩ := lexStep_left _ _ _ _ hn
      exact ⟨⟨g2.trans hst, htr, g1.sane, g3, fun e => absurd e g4.some⟩, g4, g5⟩

/-- The invariant goes on with the input. -/
theorem I.go {s : JsonP} (h : I s) {l : Lexer} (h1 : Later s.lex.inp l.inp) (h2 : l.lastToken = s.lex.lastToken) (h3 : l.lastNull = s.lex.lastNull) :
    I { s with lex := l } :=
  ⟨h.started, h.trace, h1.sane, fun e => by dsimp only at e ⊢; rw [h2]; rw [h3] at e; exact h.null e, fun e => h.init (by rw [← h2]; exact e)⟩

theorem getStr_ends {s : JsonP} (h : I s) : Safe (fun x => I x.2 ∧ m x.2 < m s) s.getStr := by
  unfold JsonP.getStr
  refine (getStringInto_less h.sane).bind ?_
  rintro ⟨v, l⟩ ⟨h1, h2, h3, h4⟩
  exact .ok ⟨h.go h1 h2 h3, h4⟩

theorem getKey_ends {s : JsonP} (h : I s) : Safe (fun x => I x.2 ∧ m x.2 < m s) s.getKey := by
  unfold JsonP.getKey Lexer.getString
  refine Safe.bind (P := fun x => Later s.lex.inp x.2.inp ∧ x.2.lastToken = s.lex.lastToken ∧ x.2.lastNull = s.lex.lastNull ∧ rem x.2.inp < rem s.lex.inp) ?_ ?_
  · exact (getStringInto_less h.sane).bind fun x hx => .ok hx
  · rintro ⟨v, l⟩ ⟨h1, h2, h3, h4⟩
    exact .ok ⟨h.go h1 h2 h3, h4⟩

/-- The functions that do not read numbers. -/
theorem json_ends (o : POps JsonP) (num : Bool) (h1 : o.next = JsonP.getNextToken) (h2 : o.getKey = JsonP.getKey) (h3 : o.getBool = JsonP.getBool)
    (h4 : o.getStr = JsonP.getStr) (h5 : o.isNull = JsonP.isValueNull) (h6 : o.ignoreData = JsonP.ignoreDataValue)
    (hi : num = true → ∀ k s, I s → A .Value s → Safe (fun x => I x.2 ∧ m x.2 < m s + w .Value) (o.getInt k s))
    (hf : num = true → ∀ f s, I s → A .Value s → Safe (fun x => I x.2 ∧ m x.2 < m s + w .Value) (o.getFlt f s)) (st : ParseType) :
    Halts o num false true (fun _ => I) (fun _ => A) m w st where
  error := rfl
  mapStart := by decide
  arrayStart := by decide
  loose _ _ _ _ h := h
  keyTok h := by cases h
  next _ s h := by rw [h1]; exact next_ends h
  getKey _ t s _ h _ _ := by rw [h2]; exact (getKey_ends h).mono fun x hx => ⟨hx.1, .inl (by have := hx.2; omega)⟩
  getInt hn k _ := hi hn k
  getFlt hn f _ := hf hn f
  getBool _ s h ha := by
    rw [h3]
    unfold JsonP.getBool
    refine (getLastBool_less (ha.val (.inl rfl))).bind ?_
    rintro ⟨v, l⟩ ⟨g1, g2, g3, g4⟩
    exact .ok ⟨h.go g1 g2 g3, g4⟩
  getStr _ s h _ := by rw [h4]; exact (getStr_ends h).mono fun x hx => ⟨hx.1, by have := hx.2; omega⟩
  null _ t s h ha hn := by
    rw [h5] at hn
    rw [h6]
    by_cases ht : t = .Value
    · unfold JsonP.ignoreDataValue
      have ha := ha.resolve_left (by simp [ht])
      refine (ignoreRaw_less h.sane (ha.val (.inl ht))).bind fun l hl => .ok ⟨h.go hl.1 hl.2.1 hl.2.2.1, ?_, fun _ => ?_⟩ <;>
      · have := hl.2.2.2
        unfold m
        dsimp only
        omega
    · unfold JsonP.ignoreDataValue Lexer.ignoreRawValue
      rw [h.null hn]
      dsimp only
      refine .ok ⟨h.go (later_ignore 4) ?_ rfl, Nat.le_trans (rem_later (later_ignore 4)) (Nat.le_add_right _ _), fun h => h.elim (fun h => by cases h) fun h => absurd h ht⟩
      exact (h.null hn).symm
  skip _ _ t s h ha _ := by
    rw [h6]
    unfold JsonP.ignoreDataValue
    by_cases ht : t = .Key ∨ t = .Value
    · refine (ignoreRaw_less h.sane (ha.val ht.symm)).bind fun l hl => .ok fun _ => ⟨h.go hl.1 hl.2.1 hl.2.2.1, ?_⟩
      have := hl.2.2.2
      unfold m
      dsimp only
      omega
    · refine Safe.of (fun x _ e => absurd e ht) (Res.bind_ne_ub (ignoreRaw_safe ha.some) (by simp))

/-- Without numbers. -/
theorem json_ends_plain (st : ParseType) : Halts JsonP.ops false false true (fun _ => I) (fun _ => A) m w st :=
  json_ends _ _ rfl rfl rfl rfl rfl rfl (fun h => by cases h) (fun h => by cases h) st

theorem atScalar_pos {l : Lexer} (h : AtScalar l) : l.inp.pos ≤ l.inp.data.length := by
  rcases h with ⟨_, h⟩ | ⟨_, h⟩ <;> omega

/-- With something in the place of the numbers that are out of range. -/
theorem json_ends_indet (j : Indet) (st : ParseType) : Halts (opsJ j) true false true (fun _ => I) (fun _ => A) m w st := by
  refine json_ends _ _ rfl rfl rfl rfl rfl rfl (fun _ k s h ha => ?_) (fun _ f s h ha => ?_) st
  · show Safe _ (getIntJ j k s)
    unfold getIntJ
    refine (readIntValue_less k h.sane (atScalar_pos (ha.val (.inl rfl)))).bind ?_
    rintro ⟨⟨ok, v⟩, i⟩ hx
    dsimp only at hx ⊢
    split
    · exact .throwStd
    · next hok =>
      have := hx (by simpa using hok)
      exact .ok ⟨h.go (l := { s.lex with inp := i }) this.1 rfl rfl, this.2⟩
  · show Safe _ (getFltJ j f s)
    unfold getFltJ
    refine (readFltValue_less f h.sane (atScalar_pos (ha.val (.inl rfl)))).bind ?_
    rintro ⟨⟨ok, v⟩, i⟩ hx
    dsimp only at hx ⊢
    split
    · exact .throwStd
    · next hok =>
      have := hx (by simpa using hok)
      exact .ok ⟨h.go (l := { s.lex with inp := i }) this.1 rfl rfl, this.2⟩

end JEnds
end Thors
