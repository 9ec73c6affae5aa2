import Verif.Proofs.JsonTrace
/-
Properties C11, C13, C14: the token stream of the JSON reader.

`Trace c xs ts` (Proofs/JsonTrace.lean) says: some history of `getNextToken` calls on a fresh parser, with
an arbitrary client acting on the lexer and the input between the calls, consumed the lexical classes
`xs`, handed out the tokens `ts` and left the parser's control state at `c`.
-/
namespace Thors.Props
open Thors Spec

/-- C11. If the reader hands out tokens from document start to document end without an error token,
then the lexical classes it consumed are exactly those of one grammatical JSON value (`Shape.lexemes` is
the grammar) and the tokens are exactly the events of that value. -/
theorem C11_only_grammatical (c : JCtl) (xs : List Lexeme) (mid : List Tok)
    (h : Trace c xs (.DocStart :: mid ++ [.DocEnd])) :
    ∃ v : Shape, v.ok = true ∧ xs = v.lexemes ∧ mid = v.events := by
  have := trace_inv h
  generalize hts : Tok.DocStart :: mid ++ [Tok.DocEnd] = ts at this
  cases this with
  | fresh => simp at hts
  | live hs he hi hm =>
    rename_i mid'
    simp at hts
    have := hm .DocEnd (by rw [← hts]; simp)
    simp at this
  | dead hs he hm =>
    rename_i mid' n
    exfalso
    simp at hts
    have hl := congrArg (fun l => l.getLast?) hts
    simp only [List.getLast?_append, List.getLast?_singleton] at hl
    rw [← List.replicate_succ, List.replicate_succ'] at hl
    simp at hl
  | ended hs he hv hx hm =>
    rename_i n v
    simp only [List.cons_append, List.cons.injEq, true_and] at hts
    cases n with
    | zero =>
      simp at hts
      exact ⟨v, hv, hx, hts⟩
    | succ n =>
      exfalso
      have hl := congrArg (fun l => l.getLast?) hts
      simp only [List.getLast?_append, List.getLast?_singleton] at hl
      rw [List.replicate_succ', ← List.cons_append, List.getLast?_append] at hl
      simp at hl

/-- A lexer standing at a text, for the examples. -/
private def at_ (d : Bytes) : Lexer :=
  { inp := StrIn.ofBytes d, buffer := [], lastToken := none, lastBool := false, lastNull := false, convertBackSlash := true }

/-- non-vacuity: a history over `[null]` reaches document end (the client repositions the input behind
the literal). -/
example : ∃ c xs, Trace c xs (.DocStart :: [.ArrayStart, .Value, .ArrayEnd] ++ [.DocEnd]) :=
  ⟨_, _, .next (at_ []) (.next (at_ b!"]") (.next (at_ b!"null]") (.next (at_ b!"[null]")
    (.next (at_ []) .start rfl) rfl) rfl) rfl) rfl⟩

/-- C13. Whatever the input and the client do, `getNextToken` never pops an empty container stack (that
would be `ub`), and never reaches its "unnamed state" throw: it always hands out a token. -/
theorem C13_no_underflow (c : JCtl) (xs : List Lexeme) (ts : List Tok) (h : Trace c xs ts) (lex : Lexer) :
    ∃ t p', JsonP.getNextToken ⟨lex, c⟩ = .ok (t, p') := by
  have := trace_inv h
  cases this with
  | fresh => exact ⟨_, _, rfl⟩
  | live hs he hi hm =>
    by_cases hd : c.currentState = .Done
    · exact ⟨.DocEnd, _, by simp [JsonP.getNextToken, hs, hd]; rfl⟩
    · obtain ⟨t, q, h1, _⟩ := next_live hi hs hd he lex
      exact ⟨t, q, h1⟩
  | dead hs he hm => exact ⟨.Error, _, by simp [JsonP.getNextToken, hs, he]; rfl⟩
  | ended hs he hv hx hm => exact ⟨.Error, _, by simp [JsonP.getNextToken, hs, he]; rfl⟩

/-- C14. Document end is delivered at most once, and after document end or after the first error every
further token is an error; document start is delivered first and only once. -/
theorem C14_end_once_errors_final (c : JCtl) (xs : List Lexeme) (ts before after : List Tok) (t : Tok)
    (h : Trace c xs ts) (hts : ts = before ++ t :: after) :
    (t = .DocEnd ∨ t = .Error → ∀ x ∈ after, x = .Error) ∧
    (t = .DocStart ↔ before = []) := by
  have hmem : ∀ {mid : List Tok}, (∀ t ∈ mid, t ≠ Tok.Error ∧ t ≠ Tok.DocEnd ∧ t ≠ Tok.DocStart) →
      ∀ {tail : List Tok}, (∀ x ∈ tail.drop 1, x = Tok.Error) → (∀ x ∈ tail, x ≠ Tok.DocStart) →
      ∀ {b a : List Tok} {t : Tok}, .DocStart :: mid ++ tail = b ++ t :: a →
      (t = .DocEnd ∨ t = .Error → ∀ x ∈ a, x = .Error) ∧ (t = .DocStart ↔ b = []) := by
    intro mid hm tail htail hstart b a t he
    cases b with
    | nil =>
      simp at he
      refine ⟨?_, by simp [he.1]⟩
      rintro (h | h) <;> rw [← he.1] at h <;> cases h
    | cons b0 b =>
      simp only [List.cons_append, List.cons.injEq] at he
      obtain ⟨_, he⟩ := he
      have : (∃ c, mid = b ++ t :: c ∧ a = c ++ tail) ∨ (∃ c, tail = c ++ t :: a ∧ b = mid ++ c) := by
        clear hm
        induction mid generalizing b with
        | nil => right; exact ⟨b, by simpa using he, by simp⟩
        | cons m ms ih =>
          cases b with
          | nil => simp at he; left; exact ⟨ms, by simp [he.1], he.2.symm⟩
          | cons b1 b =>
            simp only [List.cons_append, List.cons.injEq] at he
            rcases ih b he.2 with ⟨c, h1, h2⟩ | ⟨c, h1, h2⟩
            · left; exact ⟨c, by simp [h1, he.1], h2⟩
            · right; exact ⟨c, h1, by simp [h2, he.1]⟩
      rcases this with ⟨c', h1, h2⟩ | ⟨c', h1, h2⟩
      · have := hm t (by rw [h1]; simp)
        refine ⟨?_, by simp [this.2.2]⟩
        rintro (h | h)
        · exact absurd h this.2.1
        · exact absurd h this.1
      · refine ⟨?_, by simp [hstart t (by rw [h1]; simp)]⟩
        intro _ x hx
        apply htail
        rw [h1]
        cases c' with
        | nil => simpa using hx
        | cons y ys => simp [hx]
  have hinv := trace_inv h
  rw [hts] at hinv
  generalize hl : before ++ t :: after = l at hinv
  cases hinv with
  | fresh => simp at hl
  | live hs he hi hm => exact hmem hm (tail := []) (by simp) (by simp) (by simpa using hl.symm)
  | dead hs he hm =>
    rename_i n
    exact hmem hm (tail := .Error :: List.replicate n .Error) (by simp) (by simp) (by simpa using hl.symm)
  | ended hs he hv hx hm =>
    rename_i n v
    exact hmem hm (tail := .DocEnd :: List.replicate n .Error) (by simp) (by simp) (by simpa using hl.symm)

/-- non-vacuity: over `true` and then past the end. -/
example : ∃ c xs, Trace c xs [.DocStart, .Value, .DocEnd, .Error] :=
  ⟨_, _, .next (at_ []) (.next (at_ []) (.next (at_ b!"true") (.next (at_ []) .start rfl) rfl) rfl) rfl⟩

end Thors.Props
