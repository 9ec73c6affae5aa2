import Verif.Model.JsonParser
import Verif.Spec.JsonGrammar
/-
Lemmas about the JSON parser's state machine over lexical classes.
-/
namespace Thors
open Spec

namespace JCtl
/-- Feed a sequence of lexemes; the tokens handed out. -/
def feedAll : JCtl → List Lexeme → Res (List Tok × JCtl)
  | c, [] => .ok ([], c)
  | c, x :: xs => do
    let (t, c) ← c.feed x
    let (ts, c) ← feedAll c xs
    return (t.toList ++ ts, c)

theorem feedAll_append (c : JCtl) (a b : List Lexeme) :
    c.feedAll (a ++ b) = (do
      let (t1, c) ← c.feedAll a
      let (t2, c) ← c.feedAll b
      return (t1 ++ t2, c)) := by
  induction a generalizing c with
  | nil =>
    simp only [List.nil_append, feedAll, Res.ok_bind]
    cases c.feedAll b <;> simp
  | cons x xs ih =>
    simp only [List.cons_append, feedAll]
    cases c.feed x with
    | throw e => rfl
    | ub => rfl
    | ok p =>
      obtain ⟨t, c1⟩ := p
      simp only [Res.ok_bind, ih]
      cases c1.feedAll xs with
      | throw e => rfl
      | ub => rfl
      | ok q =>
        obtain ⟨ts, c2⟩ := q
        simp only [Res.ok_bind]
        cases hb : c2.feedAll b <;> simp [hb]

end JCtl

/-- An open container: what has been completed in it. -/
inductive Frame
  | A (done : List Shape)
  | O (done : List Shape)

def trailA : List Shape → List Lexeme
  | [] => []
  | v :: vs => v.lexemes ++ .comma :: trailA vs
def trailO : List Shape → List Lexeme
  | [] => []
  | v :: vs => .string :: .colon :: v.lexemes ++ .comma :: trailO vs

namespace Frame
def endState : Frame → JState
  | A _ => .ValueA
  | O _ => .ValueM
/-- text of an open container up to the point where a value is due -/
def text : Frame → List Lexeme
  | A d => .lbracket :: trailA d
  | O d => .lbrace :: trailO d ++ [.string, .colon]
def toks : Frame → List Tok
  | A d => .ArrayStart :: Shape.events.elemEvents d
  | O d => .MapStart :: Shape.events.memberEvents d ++ [.Key]
def good : Frame → Bool
  | A d => Shape.ok.oks d
  | O d => Shape.ok.oks d
end Frame

def ends : List Frame → List JState
  | [] => [.Done]
  | f :: fs => f.endState :: ends fs
def preText : List Frame → List Lexeme
  | [] => []
  | f :: fs => preText fs ++ f.text
def preToks : List Frame → List Tok
  | [] => []
  | f :: fs => preToks fs ++ f.toks
def allGood : List Frame → Bool
  | [] => true
  | f :: fs => f.good && allGood fs

theorem trailA_append (a : List Shape) (v : Shape) : trailA (a ++ [v]) = trailA a ++ v.lexemes ++ [.comma] := by
  induction a with
  | nil => simp [trailA]
  | cons x xs ih => simp [trailA, ih]
theorem trailO_append (a : List Shape) (v : Shape) : trailO (a ++ [v]) = trailO a ++ .string :: .colon :: v.lexemes ++ [.comma] := by
  induction a with
  | nil => simp [trailO]
  | cons x xs ih => simp [trailO, ih]
theorem commaSep_elems (a : List Shape) (v : Shape) :
    commaSep (Shape.lexemes.elems (a ++ [v])) = trailA a ++ v.lexemes := by
  induction a with
  | nil => simp [Shape.lexemes.elems, trailA, commaSep]
  | cons x xs ih =>
    cases xs with
    | nil => simp [Shape.lexemes.elems, trailA, commaSep]
    | cons y ys =>
      simp only [List.cons_append, Shape.lexemes.elems, commaSep, trailA] at ih ⊢
      rw [ih]; simp
theorem commaSep_members (a : List Shape) (v : Shape) :
    commaSep (Shape.lexemes.members (a ++ [v])) = trailO a ++ .string :: .colon :: v.lexemes := by
  induction a with
  | nil => simp [Shape.lexemes.members, trailO, commaSep]
  | cons x xs ih =>
    cases xs with
    | nil => simp [Shape.lexemes.members, trailO, commaSep]
    | cons y ys =>
      simp only [List.cons_append, Shape.lexemes.members, commaSep, trailO] at ih ⊢
      rw [ih]; simp
theorem elemEvents_append (a : List Shape) (v : Shape) :
    Shape.events.elemEvents (a ++ [v]) = Shape.events.elemEvents a ++ v.events := by
  induction a with
  | nil => simp [Shape.events.elemEvents]
  | cons x xs ih => simp [Shape.events.elemEvents, ih]
theorem memberEvents_append (a : List Shape) (v : Shape) :
    Shape.events.memberEvents (a ++ [v]) = Shape.events.memberEvents a ++ .Key :: v.events := by
  induction a with
  | nil => simp [Shape.events.memberEvents]
  | cons x xs ih => simp [Shape.events.memberEvents, ih]
theorem oks_append (a : List Shape) (v : Shape) : Shape.ok.oks (a ++ [v]) = (Shape.ok.oks a && v.ok) := by
  induction a with
  | nil => simp [Shape.ok.oks]
  | cons x xs ih => simp [Shape.ok.oks, ih, Bool.and_assoc]

/-- What the machine's state says about the lexemes consumed so far. -/
inductive Inv : JState → List JState → List Lexeme → List Tok → Prop
  | init : Inv .Init [.Done] [] []
  | done (v : Shape) (h : v.ok = true) : Inv .Done [.Done] v.lexemes v.events
  | openA (fs) (h : allGood fs = true) : Inv .OpenA (.ValueA :: ends fs) (preText fs ++ [.lbracket]) (preToks fs ++ [.ArrayStart])
  | valueA (fs d v) (h : allGood (.A (d ++ [v]) :: fs) = true) :
      Inv .ValueA (.ValueA :: ends fs) (preText fs ++ .lbracket :: trailA d ++ v.lexemes)
        (preToks fs ++ .ArrayStart :: Shape.events.elemEvents (d ++ [v]))
  | commaA (fs d) (h : allGood (.A d :: fs) = true) :
      Inv .CommaA (.ValueA :: ends fs) (preText fs ++ .lbracket :: trailA d)
        (preToks fs ++ .ArrayStart :: Shape.events.elemEvents d)
  | openM (fs) (h : allGood fs = true) : Inv .OpenM (.ValueM :: ends fs) (preText fs ++ [.lbrace]) (preToks fs ++ [.MapStart])
  | valueM (fs d v) (h : allGood (.O (d ++ [v]) :: fs) = true) :
      Inv .ValueM (.ValueM :: ends fs) (preText fs ++ .lbrace :: trailO d ++ .string :: .colon :: v.lexemes)
        (preToks fs ++ .MapStart :: Shape.events.memberEvents (d ++ [v]))
  | commaM (fs d) (h : allGood (.O d :: fs) = true) :
      Inv .CommaM (.ValueM :: ends fs) (preText fs ++ .lbrace :: trailO d)
        (preToks fs ++ .MapStart :: Shape.events.memberEvents d)
  | key (fs d) (h : allGood (.O d :: fs) = true) :
      Inv .Key (.ValueM :: ends fs) (preText fs ++ .lbrace :: trailO d ++ [.string])
        (preToks fs ++ .MapStart :: Shape.events.memberEvents d ++ [.Key])
  | colon (fs d) (h : allGood (.O d :: fs) = true) :
      Inv .Colon (.ValueM :: ends fs) (preText fs ++ .lbrace :: trailO d ++ [.string, .colon])
        (preToks fs ++ .MapStart :: Shape.events.memberEvents d ++ [.Key])

/-- A completed value brings the machine to the end state of the enclosing container. -/
theorem inv_value (fs : List Frame) (v : Shape) (hg : allGood fs = true) (hv : v.ok = true) :
    ∃ e es, ends fs = e :: es ∧ Inv e (ends fs) (preText fs ++ v.lexemes) (preToks fs ++ v.events) := by
  cases fs with
  | nil => exact ⟨_, _, rfl, by simpa [preText, preToks, ends] using Inv.done v hv⟩
  | cons f fs =>
    refine ⟨_, _, rfl, ?_⟩
    cases f with
    | A d =>
      have := Inv.valueA fs d v (by simp [allGood, Frame.good, oks_append] at hg ⊢; exact ⟨⟨hg.1, hv⟩, hg.2⟩)
      simpa [ends, Frame.endState, preText, preToks, Frame.text, Frame.toks, elemEvents_append] using this
    | O d =>
      have := Inv.valueM fs d v (by simp [allGood, Frame.good, oks_append] at hg ⊢; exact ⟨⟨hg.1, hv⟩, hg.2⟩)
      simpa [ends, Frame.endState, preText, preToks, Frame.text, Frame.toks, memberEvents_append] using this

def CtlInv (c : JCtl) (xs : List Lexeme) (ts : List Tok) : Prop :=
  Inv c.currentState (c.currentEnd :: c.parrentState) xs ts

/-- What `feed_inv` claims for one lexeme. -/
def StepOk (c : JCtl) (xs : List Lexeme) (ts : List Tok) (x : Lexeme) : Prop :=
  (∃ c', c.feed x = .ok (some .Error, c') ∧ c'.currentState = .Error) ∨
    ∃ t c', c.feed x = .ok (t, c') ∧ t ≠ some .Error ∧ t ≠ some .DocEnd ∧ t ≠ some .DocStart ∧
      (c'.started = c.started) ∧ CtlInv c' (xs ++ [x]) (ts ++ t.toList)

/-- A state in which a value is due. -/
def valueDue : JState → Bool
  | .Init | .OpenA | .CommaA | .Colon => true
  | _ => false

theorem due_scalar {c : JCtl} {fs : List Frame} (hd : valueDue c.currentState = true) (he : c.currentEnd :: c.parrentState = ends fs)
    (hst : c.currentState = .Init ∧ fs = [] ∨ (c.currentState = .OpenA ∨ c.currentState = .CommaA) ∧ (∃ d f, fs = .A d :: f) ∨ c.currentState = .Colon ∧ (∃ d f, fs = .O d :: f))
    (hg : allGood fs = true) (x : Lexeme) (hx : isScalar x = true) :
    StepOk c (preText fs) (preToks fs) x := by
  right
  obtain ⟨e, es, h1, h2⟩ := inv_value fs (.scalar x) hg (by simpa [Shape.ok] using hx)
  obtain ⟨ce, cst, ps, st⟩ := c
  rcases hst with ⟨h, rfl⟩ | ⟨h | h, d, f, rfl⟩ | ⟨h, d, f, rfl⟩
  all_goals
    simp only [] at h he hd
    subst h
    rw [h1] at he
    injection he with h3 h4
    subst h3 h4
    rw [h1] at h2
    simp only [ends] at h1
    injection h1 with h5 h6
    cases x <;> simp [isScalar] at hx <;>
      refine ⟨_, _, rfl, by simp, by simp, by simp, rfl, ?_⟩ <;>
      simpa [CtlInv, Shape.lexemes, Shape.events, Frame.endState, stateTable, ← h5] using h2

theorem due_open {c : JCtl} {fs : List Frame} (hd : valueDue c.currentState = true) (he : c.currentEnd :: c.parrentState = ends fs)
    (hg : allGood fs = true) (x : Lexeme) (hx : x = .lbrace ∨ x = .lbracket) :
    StepOk c (preText fs) (preToks fs) x := by
  right
  obtain ⟨ce, cst, ps, st⟩ := c
  simp only [] at he hd
  rcases hx with rfl | rfl
  · have : stateTable cst .lbrace = .OpenM := by cases cst <;> simp [valueDue] at hd <;> rfl
    refine ⟨some .MapStart, ⟨.ValueM, .OpenM, ce :: ps, st⟩, by simp only [JCtl.feed, this], by simp, by simp, by simp, rfl, ?_⟩
    simp only [CtlInv, he]
    exact Inv.openM fs hg
  · have : stateTable cst .lbracket = .OpenA := by cases cst <;> simp [valueDue] at hd <;> rfl
    refine ⟨some .ArrayStart, ⟨.ValueA, .OpenA, ce :: ps, st⟩, by simp only [JCtl.feed, this], by simp, by simp, by simp, rfl, ?_⟩
    simp only [CtlInv, he]
    exact Inv.openA fs hg

theorem step_err {c : JCtl} {xs : List Lexeme} {ts : List Tok} {x : Lexeme} (h : stateTable c.currentState x = .Error) :
    StepOk c xs ts x := by
  left
  exact ⟨{ c with currentState := .Error }, by simp only [JCtl.feed, h], rfl⟩

theorem closeA_step {c : JCtl} {xs : List Lexeme} {ts : List Tok} {fs : List Frame} {v : Shape}
    (hs : c.currentState = .OpenA ∨ c.currentState = .ValueA) (he : c.currentEnd :: c.parrentState = .ValueA :: ends fs)
    (hg : allGood fs = true) (hv : v.ok = true) (h1 : xs ++ [.rbracket] = preText fs ++ v.lexemes)
    (h2 : ts ++ [.ArrayEnd] = preToks fs ++ v.events) : StepOk c xs ts .rbracket := by
  right
  obtain ⟨ce, cst, ps, st⟩ := c
  simp only [] at he hs
  injection he with h3 h4
  subst h3 h4
  obtain ⟨e, es, h5, h6⟩ := inv_value fs v hg hv
  have ht : stateTable cst .rbracket = .CloseA := by rcases hs with rfl | rfl <;> rfl
  refine ⟨some .ArrayEnd, ⟨e, e, es, st⟩, by simp only [JCtl.feed, ht, h5], by simp, by simp, by simp, rfl, ?_⟩
  simp only [CtlInv, Option.toList_some, h1, h2]
  rw [h5] at h6
  exact h6

theorem closeM_step {c : JCtl} {xs : List Lexeme} {ts : List Tok} {fs : List Frame} {v : Shape}
    (hs : c.currentState = .OpenM ∨ c.currentState = .ValueM) (he : c.currentEnd :: c.parrentState = .ValueM :: ends fs)
    (hg : allGood fs = true) (hv : v.ok = true) (h1 : xs ++ [.rbrace] = preText fs ++ v.lexemes)
    (h2 : ts ++ [.MapEnd] = preToks fs ++ v.events) : StepOk c xs ts .rbrace := by
  right
  obtain ⟨ce, cst, ps, st⟩ := c
  simp only [] at he hs
  injection he with h3 h4
  subst h3 h4
  obtain ⟨e, es, h5, h6⟩ := inv_value fs v hg hv
  have ht : stateTable cst .rbrace = .CloseM := by rcases hs with rfl | rfl <;> rfl
  refine ⟨some .MapEnd, ⟨e, e, es, st⟩, by simp only [JCtl.feed, ht, h5], by simp, by simp, by simp, rfl, ?_⟩
  simp only [CtlInv, Option.toList_some, h1, h2]
  rw [h5] at h6
  exact h6

/-- Feeding where a value is due. -/
theorem due_step {c : JCtl} {fs : List Frame} (hd : valueDue c.currentState = true) (he : c.currentEnd :: c.parrentState = ends fs)
    (hst : c.currentState = .Init ∧ fs = [] ∨ (c.currentState = .OpenA ∨ c.currentState = .CommaA) ∧ (∃ d f, fs = .A d :: f) ∨ c.currentState = .Colon ∧ (∃ d f, fs = .O d :: f))
    (hg : allGood fs = true) (x : Lexeme) (hx : x = .rbracket → stateTable c.currentState x = .Error) :
    StepOk c (preText fs) (preToks fs) x := by
  by_cases hs : isScalar x = true
  · exact due_scalar hd he hst hg x hs
  by_cases ho : x = .lbrace ∨ x = .lbracket
  · exact due_open hd he hg x ho
  · apply step_err
    cases hc : c.currentState <;> rw [hc] at hd <;> simp [valueDue] at hd <;> cases x <;> simp [isScalar] at hs ho <;>
      first
        | rfl
        | (rw [hc] at hx; exact hx rfl)

/-- One lexeme, in any reachable non-final state. -/
theorem feed_inv {c : JCtl} {xs : List Lexeme} {ts : List Tok} (h : CtlInv c xs ts) (x : Lexeme) :
    StepOk c xs ts x := by
  obtain ⟨ce, cst, ps, st⟩ := c
  simp only [CtlInv] at h
  generalize hl : ce :: ps = l at h
  cases h with
  | init => exact due_step (fs := []) rfl hl (Or.inl ⟨rfl, rfl⟩) rfl x (by rintro rfl; rfl)
  | done v hv => exact step_err (by cases x <;> rfl)
  | openA fs hg =>
    by_cases hx : x = .rbracket
    · subst hx
      exact closeA_step (fs := fs) (v := .arr []) (Or.inl rfl) hl hg rfl
        (by simp [Shape.lexemes, Shape.lexemes.elems, commaSep]) (by simp [Shape.events, Shape.events.elemEvents])
    · have := due_step (c := ⟨ce, .OpenA, ps, st⟩) (fs := .A [] :: fs) rfl hl (Or.inr (Or.inl ⟨Or.inl rfl, _, _, rfl⟩))
        (by simpa [allGood, Frame.good, Shape.ok.oks] using hg) x (fun h => absurd h hx)
      simpa [preText, preToks, Frame.text, Frame.toks, trailA, Shape.events.elemEvents] using this
  | commaA fs d hg =>
    have := due_step (c := ⟨ce, .CommaA, ps, st⟩) (fs := .A d :: fs) rfl hl (Or.inr (Or.inl ⟨Or.inr rfl, _, _, rfl⟩))
        hg x (by rintro rfl; rfl)
    simpa [preText, preToks, Frame.text, Frame.toks] using this
  | colon fs d hg =>
    have := due_step (c := ⟨ce, .Colon, ps, st⟩) (fs := .O d :: fs) rfl hl (Or.inr (Or.inr ⟨rfl, _, _, rfl⟩))
        hg x (by rintro rfl; rfl)
    simpa [preText, preToks, Frame.text, Frame.toks] using this
  | valueA fs d v hg =>
    by_cases hx : x = .rbracket
    · subst hx
      simp only [allGood, Frame.good, Bool.and_eq_true] at hg
      refine closeA_step (fs := fs) (v := .arr (d ++ [v])) (Or.inr rfl) hl hg.2 (by simpa [Shape.ok] using hg.1) ?_ ?_
      · simp [Shape.lexemes, commaSep_elems]
      · simp [Shape.events]
    by_cases hc : x = .comma
    · subst hc
      right
      refine ⟨none, ⟨ce, .CommaA, ps, st⟩, rfl, by simp, by simp, by simp, rfl, ?_⟩
      simp only [CtlInv, hl]
      have := Inv.commaA fs (d ++ [v]) hg
      simpa [trailA_append] using this
    · apply step_err
      cases x <;> simp at hx hc <;> rfl
  | openM fs hg =>
    by_cases hx : x = .rbrace
    · subst hx
      exact closeM_step (fs := fs) (v := .obj []) (Or.inl rfl) hl hg rfl
        (by simp [Shape.lexemes, Shape.lexemes.members, commaSep]) (by simp [Shape.events, Shape.events.memberEvents])
    by_cases hc : x = .string
    · subst hc
      right
      refine ⟨some .Key, ⟨ce, .Key, ps, st⟩, rfl, by simp, by simp, by simp, rfl, ?_⟩
      simp only [CtlInv, hl]
      have := Inv.key fs [] (by simpa [allGood, Frame.good, Shape.ok.oks] using hg)
      simpa [trailO, Shape.events.memberEvents] using this
    · apply step_err
      cases x <;> simp at hx hc <;> rfl
  | commaM fs d hg =>
    by_cases hc : x = .string
    · subst hc
      right
      refine ⟨some .Key, ⟨ce, .Key, ps, st⟩, rfl, by simp, by simp, by simp, rfl, ?_⟩
      simp only [CtlInv, hl]
      simpa using Inv.key fs d hg
    · apply step_err
      cases x <;> simp at hc <;> rfl
  | key fs d hg =>
    by_cases hc : x = .colon
    · subst hc
      right
      refine ⟨none, ⟨ce, .Colon, ps, st⟩, rfl, by simp, by simp, by simp, rfl, ?_⟩
      simp only [CtlInv, hl]
      simpa using Inv.colon fs d hg
    · apply step_err
      cases x <;> simp at hc <;> rfl
  | valueM fs d v hg =>
    by_cases hx : x = .rbrace
    · subst hx
      simp only [allGood, Frame.good, Bool.and_eq_true] at hg
      refine closeM_step (fs := fs) (v := .obj (d ++ [v])) (Or.inr rfl) hl hg.2 (by simpa [Shape.ok] using hg.1) ?_ ?_
      · simp [Shape.lexemes, commaSep_members]
      · simp [Shape.events]
    by_cases hc : x = .comma
    · subst hc
      right
      refine ⟨none, ⟨ce, .CommaM, ps, st⟩, rfl, by simp, by simp, by simp, rfl, ?_⟩
      simp only [CtlInv, hl]
      have := Inv.commaM fs (d ++ [v]) hg
      simpa [trailO_append] using this
    · apply step_err
      cases x <;> simp at hx hc <;> rfl

end Thors
