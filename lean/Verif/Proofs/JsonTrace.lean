import Verif.Proofs.JsonCtl
/-
Histories of `getNextToken` calls on a JSON parser with an arbitrary client in between.
-/
namespace Thors
open Spec

/-- The lexical classes one `getNextToken` call consumes. -/
def JsonP.consumed (p : JsonP) : List Lexeme :=
  if p.ctl.started = false ∨ p.ctl.currentState = .Done ∨ p.ctl.currentState = .Error then []
  else
    match p.ctl.feed p.lex.yylex.1 with
    | .ok (none, _) => [p.lex.yylex.1, p.lex.yylex.2.yylex.1]
    | _ => [p.lex.yylex.1]

/-- All histories of `getNextToken` calls on a fresh parser. Between two calls the client may do
anything to the lexer and the input (read, skip, throw): the lexer state is arbitrary in every step.
`xs` are the lexical classes consumed, `ts` the tokens handed out. -/
inductive Trace : JCtl → List Lexeme → List Tok → Prop
  | start : Trace JCtl.init [] []
  | next {c : JCtl} {xs : List Lexeme} {ts : List Tok} {t : Tok} {p' : JsonP} (lex : Lexer) (h : Trace c xs ts)
      (hn : JsonP.getNextToken ⟨lex, c⟩ = .ok (t, p')) :
      Trace p'.ctl (xs ++ JsonP.consumed ⟨lex, c⟩) (ts ++ [t])

theorem feed_none {c c' : JCtl} {x : Lexeme} (h : c.feed x = .ok (none, c')) :
    c'.currentState = .Colon ∨ c'.currentState = .CommaM ∨ c'.currentState = .CommaA := by
  unfold JCtl.feed at h
  cases hs : stateTable c.currentState x <;> rw [hs] at h <;> simp only [] at h <;>
    first
      | (cases h; simp; done)
      | (cases h; done)
      | (cases hp : c.parrentState <;> rw [hp] at h <;> cases h)

theorem feed_twice {c c' c'' : JCtl} {x y : Lexeme} (h : c.feed x = .ok (none, c')) :
    c'.feed y ≠ .ok (none, c'') := by
  intro h2
  rcases feed_none h with h1 | h1 | h1 <;>
  · unfold JCtl.feed at h2
    rw [h1] at h2
    cases y <;> simp [stateTable] at h2

/-- One `getNextToken` in a live state. -/
theorem next_live {c : JCtl} {xs : List Lexeme} {ts : List Tok} (h : CtlInv c xs ts) (hs : c.started = true)
    (hd : c.currentState ≠ .Done) (he : c.currentState ≠ .Error) (lex : Lexer) :
    ∃ t p', JsonP.getNextToken ⟨lex, c⟩ = .ok (t, p') ∧ p'.ctl.started = true ∧
      ((t = .Error ∧ p'.ctl.currentState = .Error) ∨
       (t ≠ .Error ∧ t ≠ .DocEnd ∧ t ≠ .DocStart ∧ CtlInv p'.ctl (xs ++ JsonP.consumed ⟨lex, c⟩) (ts ++ [t]))) := by
  have hcons : JsonP.consumed ⟨lex, c⟩ = match c.feed lex.yylex.1 with
    | .ok (none, _) => [lex.yylex.1, lex.yylex.2.yylex.1]
    | _ => [lex.yylex.1] := by
    unfold JsonP.consumed
    rw [if_neg (by simp [hs, hd, he])]
  have hnext : JsonP.getNextToken ⟨lex, c⟩ = JsonP.lexStep 2 ⟨lex, c⟩ := by
    unfold JsonP.getNextToken
    simp [hs, hd, he]
  rw [hnext, hcons]
  have hstart : ∀ {c c' : JCtl} {x : Lexeme} {t}, c.feed x = .ok (t, c') → c'.started = c.started := by
    intro c c' x t hf
    unfold JCtl.feed at hf
    cases hst : stateTable c.currentState x <;> rw [hst] at hf <;> simp only [] at hf <;>
      first
        | (cases hf; rfl; done)
        | (cases hf; done)
        | (cases hp : c.parrentState <;> rw [hp] at hf <;> cases hf <;> rfl)
  simp only [JsonP.lexStep]
  rcases feed_inv h lex.yylex.1 with ⟨c', hf, hc⟩ | ⟨t, c', hf, h1, h2, h3, h4, h5⟩
  · rw [hf]
    exact ⟨.Error, ⟨lex.yylex.2, c'⟩, rfl, (hstart hf).trans hs, Or.inl ⟨rfl, hc⟩⟩
  · rw [hf]
    cases t with
    | some t =>
      refine ⟨t, ⟨lex.yylex.2, c'⟩, rfl, (hstart hf).trans hs, Or.inr ⟨by simpa using h1, by simpa using h2, by simpa using h3, ?_⟩⟩
      simpa using h5
    | none =>
      simp only [Res.ok_bind]
      rcases feed_inv h5 lex.yylex.2.yylex.1 with ⟨c2, hf2, hc2⟩ | ⟨t2, c2, hf2, g1, g2, g3, g4, g5⟩
      · rw [hf2]
        exact ⟨.Error, ⟨lex.yylex.2.yylex.2, c2⟩, rfl, ((hstart hf2).trans (hstart hf)).trans hs, Or.inl ⟨rfl, hc2⟩⟩
      · cases t2 with
        | none => exact absurd hf2 (feed_twice hf)
        | some t2 =>
          rw [hf2]
          refine ⟨t2, ⟨lex.yylex.2.yylex.2, c2⟩, rfl, ((hstart hf2).trans (hstart hf)).trans hs,
            Or.inr ⟨by simpa using g1, by simpa using g2, by simpa using g3, ?_⟩⟩
          simpa using g5

/-- The invariant of all histories. -/
inductive TInv : JCtl → List Lexeme → List Tok → Prop
  | fresh : TInv JCtl.init [] []
  | live {c xs mid} (hs : c.started = true) (he : c.currentState ≠ .Error) (hi : CtlInv c xs mid)
      (hm : ∀ t ∈ mid, t ≠ .Error ∧ t ≠ .DocEnd ∧ t ≠ .DocStart) : TInv c xs (.DocStart :: mid)
  | dead {c xs mid n} (hs : c.started = true) (he : c.currentState = .Error)
      (hm : ∀ t ∈ mid, t ≠ .Error ∧ t ≠ .DocEnd ∧ t ≠ .DocStart) :
      TInv c xs (.DocStart :: mid ++ .Error :: List.replicate n .Error)
  | ended {c xs n} {v : Shape} (hs : c.started = true) (he : c.currentState = .Error) (hv : v.ok = true)
      (hx : xs = v.lexemes) (hm : ∀ t ∈ v.events, t ≠ .Error ∧ t ≠ .DocEnd ∧ t ≠ .DocStart) :
      TInv c xs (.DocStart :: v.events ++ .DocEnd :: List.replicate n .Error)

theorem inv_done {c : JCtl} {xs ts} (h : CtlInv c xs ts) (hd : c.currentState = .Done) :
    ∃ v : Shape, v.ok = true ∧ xs = v.lexemes ∧ ts = v.events := by
  obtain ⟨ce, cst, ps, st⟩ := c
  simp only [CtlInv] at h hd
  subst hd
  generalize ce :: ps = l at h
  cases h with
  | done v hv => exact ⟨v, hv, rfl, rfl⟩

theorem inv_not_error {c : JCtl} {xs ts} (h : CtlInv c xs ts) : c.currentState ≠ .Error := by
  intro he
  obtain ⟨ce, cst, ps, st⟩ := c
  simp only [CtlInv] at h he
  subst he
  generalize ce :: ps = l at h
  cases h

theorem trace_inv {c : JCtl} {xs ts} (h : Trace c xs ts) : TInv c xs ts := by
  induction h with
  | start => exact .fresh
  | next lex h hn ih =>
    rename_i c xs ts t p'
    cases ih with
    | fresh =>
      simp [JsonP.getNextToken, JCtl.init] at hn
      obtain ⟨rfl, rfl⟩ := hn
      have : JsonP.consumed ⟨lex, JCtl.init⟩ = [] := by simp [JsonP.consumed, JCtl.init]
      rw [this]
      exact .live rfl (by simp) (by simpa [CtlInv] using Inv.init) (by simp)
    | live hs he hi hm =>
      rename_i mid
      by_cases hd : c.currentState = .Done
      · obtain ⟨v, hv, rfl, rfl⟩ := inv_done hi hd
        simp [JsonP.getNextToken, hs, hd] at hn
        obtain ⟨rfl, rfl⟩ := hn
        have : JsonP.consumed ⟨lex, c⟩ = [] := by simp [JsonP.consumed, hd]
        rw [this]
        exact TInv.ended (n := 0) rfl rfl hv (by simp) hm
      · obtain ⟨t', q, h1, h2, h3⟩ := next_live hi hs hd he lex
        rw [hn] at h1
        cases h1
        rcases h3 with ⟨rfl, h3⟩ | ⟨h3, h4, h5, h6⟩
        · exact TInv.dead (n := 0) h2 h3 hm
        · refine TInv.live h2 (inv_not_error h6) h6 ?_
          intro x hx
          simp at hx
          rcases hx with hx | rfl
          · exact hm x hx
          · exact ⟨h3, h4, h5⟩
    | dead hs he hm =>
      rename_i mid n
      simp [JsonP.getNextToken, hs, he] at hn
      obtain ⟨rfl, rfl⟩ := hn
      have := TInv.dead (c := c) (xs := xs ++ JsonP.consumed ⟨lex, c⟩) (mid := mid) (n := n + 1) hs he hm
      rw [List.replicate_succ'] at this
      simpa using this
    | ended hs he hv hx hm =>
      rename_i n v
      simp [JsonP.getNextToken, hs, he] at hn
      obtain ⟨rfl, rfl⟩ := hn
      have hc : JsonP.consumed ⟨lex, c⟩ = [] := by simp [JsonP.consumed, he]
      have := TInv.ended (c := c) (xs := xs ++ JsonP.consumed ⟨lex, c⟩) (n := n + 1) hs he hv (by simpa [hc] using hx) hm
      rw [List.replicate_succ'] at this
      simpa using this

end Thors
