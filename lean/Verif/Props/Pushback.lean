import Verif.Model.JsonOps
/-
Property C15: pushed back tokens.
-/
namespace Thors.Props
open Thors

/-- What a client does with the token interface. -/
inductive TokOp
  | get
  | push (t : Tok)

/-- Specification: an unbounded stack of pushed back tokens in front of the format's token stream. The result
is the list of tokens handed out and the final stack and stream. -/
def stackRun {σ : Type} (next : σ → Res (Tok × σ)) : List TokOp → List Tok → σ → Res (List Tok × List Tok × σ)
  | [], st, s => .ok ([], st, s)
  | .push t :: ops, st, s => stackRun next ops (t :: st) s
  | .get :: ops, t :: st, s => do
    let (ts, r) ← stackRun next ops st s
    return (t :: ts, r)
  | .get :: ops, [], s => do
    let (t, s) ← next s
    let (ts, r) ← stackRun next ops [] s
    return (t :: ts, r)

/-- The code: `getToken` and `pushBackToken`. -/
def codeRun {σ : Type} (o : POps σ) : List TokOp → PI σ → Res (List Tok × PI σ)
  | [], p => .ok ([], p)
  | .push t :: ops, p => codeRun o ops (p.pushBackToken t)
  | .get :: ops, p => do
    let (t, p) ← p.getToken o
    let (ts, r) ← codeRun o ops p
    return (t :: ts, r)

/-- At most two tokens are outstanding at any time, starting with `n`, and no error token is pushed. -/
def atMostTwo : List TokOp → Nat → Prop
  | [], n => n ≤ 2
  | .push t :: ops, n => n < 2 ∧ t ≠ .Error ∧ atMostTwo ops (n + 1)
  | .get :: ops, n => n ≤ 2 ∧ atMostTwo ops (n - 1)

/-- The tokens outstanding in a parser, most recent first. -/
def outstanding {σ : Type} (p : PI σ) : List Tok :=
  (if p.pb2 = .Error then [] else [p.pb2]) ++ (if p.pb1 = .Error then [] else [p.pb1])

/-- The parser fills its two places in order. -/
private def ok {σ : Type} (p : PI σ) : Prop := p.pb1 = .Error → p.pb2 = .Error

private theorem run_eq {σ : Type} (o : POps σ) (ops : List TokOp) : ∀ (p : PI σ), ok p → atMostTwo ops (outstanding p).length →
    stackRun o.next ops (outstanding p) p.inner = (do let (ts, q) ← codeRun o ops p; return (ts, outstanding q, q.inner)) := by
  induction ops with
  | nil => intro p _ _; rfl
  | cons op ops ih =>
    intro p hok h2
    cases op with
    | push t =>
      obtain ⟨hlt, hne, h2⟩ := h2
      have e : outstanding (p.pushBackToken t) = t :: outstanding p := by
        obtain ⟨s, a, b⟩ := p
        unfold ok at hok
        simp only [outstanding, PI.pushBackToken] at hok hlt ⊢
        by_cases ha : a = .Error
        · simp [ha, hok ha, hne]
        · by_cases hb : b = .Error
          · simp [ha, hb, hne]
          · simp [ha, hb] at hlt
      have hok' : ok (p.pushBackToken t) := by
        obtain ⟨s, a, b⟩ := p
        unfold ok at hok ⊢
        simp only [PI.pushBackToken] at hok ⊢
        by_cases ha : a = .Error
        · simp [ha, hne]
        · by_cases hb : b = .Error <;> simp [ha, hb]
      have := ih (p.pushBackToken t) hok' (by rw [e]; exact h2)
      rw [e] at this
      have hi : (p.pushBackToken t).inner = p.inner := by
        unfold PI.pushBackToken; split
        · rfl
        · split <;> rfl
      rw [hi] at this
      simp only [stackRun, codeRun]
      exact this
    | get =>
      obtain ⟨-, h2⟩ := h2
      obtain ⟨s, a, b⟩ := p
      unfold ok at hok
      simp only at hok
      by_cases hb : b = .Error
      · by_cases ha : a = .Error
        · subst ha; subst hb
          simp only [outstanding, codeRun, PI.getToken, stackRun, ne_eq, not_true_eq_false, if_true, if_false, List.append_nil]
          cases hn : o.next s with
          | ok x =>
            obtain ⟨t, s'⟩ := x
            have := ih ⟨s', .Error, .Error⟩ (fun _ => rfl) (by simpa [outstanding] using h2)
            simp only [outstanding, if_true, List.append_nil] at this
            simp only [Res.ok_bind, Res.pure_eq]
            rw [this]
            cases codeRun o ops ⟨s', .Error, .Error⟩ <;> rfl
          | throw e => rfl
          | ub => rfl
        · subst hb
          have := ih ⟨s, .Error, .Error⟩ (fun _ => rfl) (by simpa [outstanding, ha] using h2)
          simp only [outstanding, if_true, List.append_nil] at this
          simp only [outstanding, codeRun, PI.getToken, ne_eq, not_true_eq_false, if_true, if_false, ha, not_false_eq_true, List.nil_append, stackRun, Res.ok_bind, Res.pure_eq]
          rw [this]
          cases codeRun o ops ⟨s, .Error, .Error⟩ <;> rfl
      · have ha : a ≠ .Error := fun h => hb (hok h)
        have := ih ⟨s, a, .Error⟩ (fun _ => rfl) (by simpa [outstanding, ha, hb] using h2)
        simp only [outstanding, if_true, List.nil_append, ha, if_false] at this
        simp only [outstanding, codeRun, PI.getToken, ne_eq, if_true, if_false, ha, hb, not_false_eq_true, stackRun, Res.ok_bind, Res.pure_eq, List.cons_append,
          List.nil_append]
        rw [this]
        cases codeRun o ops ⟨s, a, .Error⟩ <;> rfl

/-- C15, proved part. For every sequence of `getToken` and `pushBackToken` calls that never has more than two
tokens outstanding, the tokens handed out are those of an unbounded last-in first-out stack in front of the
format's own token stream, and what is left outstanding is the same. Missing: the third outstanding token,
which is lost (`C15_third_token_lost`); the error token cannot be pushed back. -/
theorem C15_lifo_partial {σ : Type} (o : POps σ) (ops : List TokOp) (s : σ) (h : atMostTwo ops 0) :
    stackRun o.next ops [] s = (do let (ts, q) ← codeRun o ops (PI.init s); return (ts, outstanding q, q.inner)) :=
  run_eq o ops (PI.init s) (fun _ => rfl) h

/-- non-vacuity: two tokens pushed, three read. -/
example : atMostTwo [.push .Key, .push .MapStart, .get, .get, .get] 0 := by
  simp [atMostTwo]

/-- C15 is false for three tokens: the third is dropped without a word (the check for it is compiled only
with VALIDATE_EXTRA_PUSH_BACK_TOKEN). -/
theorem C15_third_token_lost :
    ¬ ∀ (ops : List TokOp) (s : JsonP), (∀ t, TokOp.push t ∈ ops → t ≠ .Error) →
      stackRun JsonP.ops.next ops [] s = (do let (ts, q) ← codeRun JsonP.ops ops (PI.init s); return (ts, outstanding q, q.inner)) := by
  intro h
  have := h [.push .Key, .push .Value, .push .MapStart, .get] (JsonP.ofBytes []) (by
    intro t ht; simp at ht; rcases ht with rfl | rfl | rfl <;> simp)
  simp [stackRun, codeRun, PI.init, PI.pushBackToken, PI.getToken] at this

end Thors.Props
