import Verif.Proofs.Lax2
import Verif.Proofs.Track
import Verif.Proofs.JsonCut2
/-
The JSON parser along an arbitrary text: between the values it is at a place of the grammar, or the import cannot succeed any more.
-/
namespace Thors
open Spec StrIn

theorem yylex_end {l : Lexer} (h : l.inp.data.length ≤ l.inp.pos) : l.yylex.1 = .number := by
  have hr : (l.inp.readChar).1 = 0xFF := by
    unfold StrIn.readChar
    dsimp only
    split
    · rw [if_neg (by omega)]
    · rw [if_neg (by omega)]
  unfold Lexer.yylex peekNextNonSpace
  dsimp only
  split <;> (rw [hr]; decide)

/-- The import cannot succeed any more. -/
def JLost (s : JsonP) : Prop :=
  s.ctl.started = true ∧ (s.ctl.currentState = .Error ∨
    (s.lex.inp.data.length ≤ s.lex.inp.pos ∧ (s.ctl.currentState = .ValueA ∨ s.ctl.currentState = .ValueM ∨ s.ctl.currentState = .Key)))

theorem JLost.later {s s' : JsonP} (h : JLost s) (hc : s'.ctl = s.ctl) (hl : Sane s.lex.inp → Later s.lex.inp s'.lex.inp) : JLost s' := by
  unfold JLost at h ⊢
  rw [hc]
  refine ⟨h.1, h.2.imp_right fun ⟨h1, h2⟩ => ⟨?_, h2⟩⟩
  have hs := hl (fun h => by omega)
  rw [hs.data]
  rcases hs.pos with p | p <;> omega

theorem JLost.next {s : JsonP} (h : JLost s) : Yields (fun x => JLost x.2 ∧ x.1 = .Error) s.getNextToken := by
  obtain ⟨h1, h2⟩ := h
  by_cases he : s.ctl.currentState = .Error
  · rw [next_cut_failed ⟨h1, he⟩]
    exact .ok ⟨⟨h1, .inl he⟩, rfl⟩
  · obtain ⟨h3, h4⟩ := h2.resolve_left he
    unfold JsonP.getNextToken
    rw [if_neg (by simp [h1]), if_neg (by rcases h4 with h | h | h <;> (rw [h]; simp)), if_neg he]
    unfold JsonP.lexStep
    have hy := yylex_end h3
    generalize s.lex.yylex = y at hy
    obtain ⟨x, l⟩ := y
    dsimp only at hy ⊢
    subst hy
    have hf : s.ctl.feed .number = .ok (some .Error, { s.ctl with currentState := .Error }) := by
      unfold JCtl.feed
      rcases h4 with h | h | h <;> (rw [h]; rfl)
    rw [hf]
    exact .ok ⟨⟨h1, .inl rfl⟩, rfl⟩

/-- Where a value is due: the state before it, and the one it leads to. -/
def Opens (c : JCtl) : Prop :=
  c.started = true ∧ ((c.currentState = .Init ∧ c.currentEnd = .Done) ∨ (c.currentState = .Key ∧ c.currentEnd = .ValueM) ∨
    (c.currentState = .OpenA ∧ c.currentEnd = .ValueA) ∨ (c.currentState = .ValueA ∧ c.currentEnd = .ValueA))

/-- What is in front of a value. -/
def Lead (c : JCtl) (l : Bytes) : Prop :=
  match c.currentState with
  | .Key => ∃ w w', LSpace w ∧ LSpace w' ∧ l = w ++ [0x3A] ++ w'
  | .ValueA => ∃ w w', LSpace w ∧ LSpace w' ∧ l = w ++ [0x2C] ++ w'
  | _ => LSpace l

section
variable (D : Bytes) (conv : Bool) (g : Lexis)

/-- A token that begins a value has been delivered; the value begins behind `p`. -/
def Mark (c : JCtl) (p : Bytes) (k : Tok) (s : JsonP) : Prop :=
  match k with
  | .Value => s.ctl = { c with currentState := c.currentEnd } ∧ s.lex.convertBackSlash = conv ∧ (c.currentEnd = .Done → s.lex.buffer = []) ∧
      ∃ x post, s.lex.lastToken = some x ∧ punctOf x = [] ∧ startsAs x post ∧ s.lex.lastNull = decide (x = .null_) ∧ Here D p post s.lex.inp
  | .MapStart => s.ctl = { c with currentState := .OpenM, parrentState := c.currentEnd :: c.parrentState, currentEnd := .ValueM } ∧
      s.lex.convertBackSlash = conv ∧ s.lex.lastNull = false ∧ ∃ post, Here D (p ++ [0x7B]) post s.lex.inp
  | .ArrayStart => s.ctl = { c with currentState := .OpenA, parrentState := c.currentEnd :: c.parrentState, currentEnd := .ValueA } ∧
      s.lex.convertBackSlash = conv ∧ s.lex.lastNull = false ∧ ∃ post, Here D (p ++ [0x5B]) post s.lex.inp
  | _ => False

def JTold (c : JCtl × Bytes) (k : Tok) (s : JsonP) : Prop := Opens c.1 ∧ ∃ l, Lead c.1 l ∧ Mark D conv c.1 (c.2 ++ l) k s

def JAt (c : JCtl × Bytes) (s : JsonP) : Prop :=
  Opens c.1 ∧ (c.1.currentState = .Init ∨ c.1.currentState = .Key) ∧ s.ctl = c.1 ∧ s.lex.convertBackSlash = conv ∧
    (c.1.currentEnd = .Done → s.lex.buffer = []) ∧ ∃ post, Here D c.2 post s.lex.inp

def JAfter (c : JCtl × Bytes) (s : JsonP) : Prop :=
  Opens c.1 ∧ s.ctl = { c.1 with currentState := c.1.currentEnd } ∧ s.lex.convertBackSlash = conv ∧
    ((∃ l v post, Lead c.1 l ∧ g.Value v ∧ Here D (c.2 ++ l ++ v) post s.lex.inp) ∨ (c.1.currentEnd = .Done ∧ s.lex.inp.good = false))

def JInA (c : JCtl × Bytes) (s : JsonP) : Prop :=
  Opens c.1 ∧ s.lex.convertBackSlash = conv ∧ ∃ l, Lead c.1 l ∧
    ((s.ctl = { c.1 with currentState := .OpenA, parrentState := c.1.currentEnd :: c.1.parrentState, currentEnd := .ValueA } ∧
        ∃ post, Here D (c.2 ++ l ++ [0x5B]) post s.lex.inp) ∨
     (s.ctl = { c.1 with currentState := .ValueA, parrentState := c.1.currentEnd :: c.1.parrentState, currentEnd := .ValueA } ∧
        ∃ t post, g.Elems t ∧ Here D (c.2 ++ l ++ [0x5B] ++ t) post s.lex.inp))

def JInM (c : JCtl × Bytes) (s : JsonP) : Prop :=
  Opens c.1 ∧ s.lex.convertBackSlash = conv ∧ ∃ l, Lead c.1 l ∧
    ((s.ctl = { c.1 with currentState := .OpenM, parrentState := c.1.currentEnd :: c.1.parrentState, currentEnd := .ValueM } ∧
        ∃ post, Here D (c.2 ++ l ++ [0x7B]) post s.lex.inp) ∨
     (s.ctl = { c.1 with currentState := .ValueM, parrentState := c.1.currentEnd :: c.1.parrentState, currentEnd := .ValueM } ∧
        ∃ t post, g.Members t ∧ Here D (c.2 ++ l ++ [0x7B] ++ t) post s.lex.inp))

def JKeyAt (c : JCtl × Bytes) (s : JsonP) : Prop :=
  Opens c.1 ∧ s.lex.convertBackSlash = conv ∧ ∃ l, Lead c.1 l ∧ s.lex.lastToken = some .string ∧
    s.ctl = { c.1 with currentState := .Key, parrentState := c.1.currentEnd :: c.1.parrentState, currentEnd := .ValueM } ∧
    ∃ q post, startsAs .string post ∧ Here D (c.2 ++ l ++ [0x7B] ++ q) post s.lex.inp ∧
      (LSpace q ∨ ∃ t w w', g.Members t ∧ LSpace w ∧ LSpace w' ∧ q = t ++ (w ++ [0x2C] ++ w'))

end

section
variable {D : Bytes} {conv : Bool} {g : Lexis}

/-- The states in which the next lexeme begins a value. -/
def Due (c : JCtl) : Prop :=
  (c.currentState = .Init ∧ c.currentEnd = .Done) ∨ (c.currentState = .Colon ∧ c.currentEnd = .ValueM) ∨
    (c.currentState = .OpenA ∧ c.currentEnd = .ValueA) ∨ (c.currentState = .CommaA ∧ c.currentEnd = .ValueA)

theorem feed_due {c : JCtl} (h : Due c) (x : Lexeme) :
    (punctOf x = [] ∧ c.feed x = .ok (some .Value, { c with currentState := c.currentEnd })) ∨
    (x = .lbrace ∧ c.feed x = .ok (some .MapStart, { c with currentState := .OpenM, parrentState := c.currentEnd :: c.parrentState, currentEnd := .ValueM })) ∨
    (x = .lbracket ∧ c.feed x = .ok (some .ArrayStart, { c with currentState := .OpenA, parrentState := c.currentEnd :: c.parrentState, currentEnd := .ValueA })) ∨
    (x = .rbracket ∧ c.currentState = .OpenA) ∨ c.feed x = .ok (some .Error, { c with currentState := .Error }) := by
  obtain ⟨e, st, ps, b⟩ := c
  rcases h with ⟨h1, h2⟩ | ⟨h1, h2⟩ | ⟨h1, h2⟩ | ⟨h1, h2⟩ <;> (dsimp only at h1 h2; subst h1 h2; cases x <;> first
    | exact .inl ⟨rfl, rfl⟩ | exact .inr (.inl ⟨rfl, rfl⟩) | exact .inr (.inr (.inl ⟨rfl, rfl⟩)) | exact .inr (.inr (.inr (.inl ⟨rfl, rfl⟩)))
    | exact .inr (.inr (.inr (.inr rfl))))

/-- The lexeme that begins a value, or closes an array that has no elements. -/
theorem value_due {s : JsonP} {pre post : Bytes} (f : Nat) (hd : Due s.ctl) (hst : s.ctl.started = true) (hcv : s.lex.convertBackSlash = conv)
    (hb : s.ctl.currentEnd = .Done → s.lex.buffer = []) (h : Here D pre post s.lex.inp) :
    Yields (fun x => JLost x.2 ∨ (∃ w, LSpace w ∧ Mark D conv s.ctl (pre ++ w) x.1 x.2) ∨
      (x.1 = .ArrayEnd ∧ s.ctl.currentState = .OpenA ∧ x.2.lex.convertBackSlash = conv ∧ ∃ w post' p ps, LSpace w ∧ s.ctl.parrentState = p :: ps ∧
        x.2.ctl = { s.ctl with currentState := p, currentEnd := p, parrentState := ps } ∧ Here D (pre ++ w ++ [0x5D]) post' x.2.lex.inp))
      (JsonP.lexStep (f + 1) s) := by
  unfold JsonP.lexStep
  obtain ⟨x, l', hy, w, post', hw, -, hh, hs, ht, hn, hbf, hcv'⟩ := yylex_lax h
  rw [hy]
  dsimp only
  rcases feed_due hd x with ⟨hx, hf⟩ | ⟨hx, hf⟩ | ⟨hx, hf⟩ | ⟨hx, hf⟩ | hf
  · rw [hf]
    refine .ok (.inr (.inl ⟨w, hw, rfl, hcv'.trans hcv, fun e => hbf.trans (hb e), x, post', ht, hx, hs hx, hn, ?_⟩))
    rw [hx] at hh
    simpa using hh
  · rw [hf]
    subst hx
    exact .ok (.inr (.inl ⟨w, hw, rfl, hcv'.trans hcv, hn, post', hh⟩))
  · rw [hf]
    subst hx
    exact .ok (.inr (.inl ⟨w, hw, rfl, hcv'.trans hcv, hn, post', hh⟩))
  · subst hx
    unfold JCtl.feed
    rw [hf]
    show Yields _ (Res.bind _ _)
    dsimp only [stateTable]
    cases hp : s.ctl.parrentState with
    | nil => exact .ub
    | cons p ps => exact .ok (.inr (.inr ⟨rfl, rfl, hcv'.trans hcv, w, post', p, ps, hw, rfl, rfl, hh⟩))
  · rw [hf]
    exact .ok (.inl ⟨hst, .inl rfl⟩)

theorem next_step {s : JsonP} (h1 : s.ctl.started = true) (h2 : s.ctl.currentState ≠ .Done) (h3 : s.ctl.currentState ≠ .Error) :
    s.getNextToken = JsonP.lexStep 2 s := by
  unfold JsonP.getNextToken
  rw [if_neg (by simp [h1]), if_neg h2, if_neg h3]

theorem mark_state {c : JCtl} {p : Bytes} {k : Tok} {s : JsonP} (st : JState) : Mark D conv { c with currentState := st } p k s ↔ Mark D conv c p k s := by
  cases k <;> exact Iff.rfl

/-- A separator, or the end of the container. -/
theorem sep_step {s : JsonP} {pre post : Bytes} {x0 : Lexeme} {st : JState} (f : Nat) (hs : s.ctl.started = true)
    (hx0 : s.ctl.feed x0 = .ok (none, { s.ctl with currentState := st })) (hcv : s.lex.convertBackSlash = conv) (h : Here D pre post s.lex.inp) 
    {P : Tok × JsonP → Prop}
    (herr : ∀ l, P (.Error, ⟨l, { s.ctl with currentState := .Error }⟩))
    (hclose : ∀ x l t c w post', x ≠ x0 → s.ctl.feed x = .ok (some t, c) → t ≠ .Error → LSpace w → l.convertBackSlash = conv →
      Here D (pre ++ w ++ punctOf x) post' l.inp → l.lastToken = some x → P (t, ⟨l, c⟩))
    (hothers : ∀ x, x ≠ x0 → (∃ t c, s.ctl.feed x = .ok (some t, c) ∧ t ≠ .Error) ∨ s.ctl.feed x = .ok (some .Error, { s.ctl with currentState := .Error }) ∨ s.ctl.feed x = .ub)
    (hsep : ∀ l w post', LSpace w → l.convertBackSlash = conv → l.buffer = s.lex.buffer → Here D (pre ++ w ++ punctOf x0) post' l.inp →
      Yields P (JsonP.lexStep f ⟨l, { s.ctl with currentState := st }⟩)) :
    Yields P (JsonP.lexStep (f + 1) s) := by
  unfold JsonP.lexStep
  obtain ⟨x, l', hy, w, post', hw, -, hh, -, ht, hn, hbf, hcv'⟩ := yylex_lax h
  rw [hy]
  dsimp only
  by_cases hx : x = x0
  · subst hx
    rw [hx0]
    exact hsep l' w post' hw (hcv'.trans hcv) hbf hh
  · rcases hothers x hx with ⟨t, c, h1, h2⟩ | h1 | h1
    · rw [h1]
      exact .ok (hclose x l' t c w post' hx h1 h2 hw (hcv'.trans hcv) hh ht)
    · rw [h1]
      exact .ok (herr _)
    · rw [h1]
      exact .ub

/-- The first token of a value. -/
theorem at_step {c : JCtl × Bytes} {s : JsonP} (h : JAt D conv c s) : Yields (fun x => JLost x.2 ∨ JTold D conv c x.1 x.2) s.getNextToken := by
  obtain ⟨c, pre⟩ := c
  obtain ⟨ho, hk, hc, hcv, hb, post, hh⟩ := h
  dsimp only at ho hk hc hb hh
  subst hc
  rw [next_step ho.1 (by rcases hk with h | h <;> (rw [h]; simp)) (by rcases hk with h | h <;> (rw [h]; simp))]
  rcases hk with hk | hk
  · have he : s.ctl.currentEnd = .Done := by
      rcases ho.2 with h | h | h | h <;> first | exact h.2 | (rw [hk] at h; cases h.1)
    refine (value_due 1 (.inl ⟨hk, he⟩) ho.1 hcv hb hh).mono ?_
    rintro ⟨k, s'⟩ (h | ⟨w, hw, h⟩ | ⟨-, h, -⟩)
    · exact .inl h
    · refine .inr ⟨ho, w, ?_, h⟩
      unfold Lead
      rw [hk]
      exact hw
    · rw [hk] at h; cases h
  · have he : s.ctl.currentEnd = .ValueM := by
      rcases ho.2 with h | h | h | h <;> first | exact h.2 | (rw [hk] at h; cases h.1)
    have hf : ∀ x, s.ctl.feed x = if x = .colon then .ok (none, { s.ctl with currentState := .Colon }) else .ok (some .Error, { s.ctl with currentState := .Error }) := by
      intro x
      unfold JCtl.feed
      rw [hk]
      cases x <;> rfl
    refine sep_step 1 ho.1 (x0 := .colon) (st := .Colon) (hf _) hcv hh ?_ ?_ ?_ ?_
    · exact fun l => .inl ⟨ho.1, .inl rfl⟩
    · intro x l t c w post' hx h1 h2
      rw [hf, if_neg hx] at h1
      cases h1
      exact absurd rfl h2
    · intro x hx
      rw [hf, if_neg hx]
      exact .inr (.inl rfl)
    · intro l w post' hw hcv' hb' hh'
      refine (value_due (s := ⟨l, { s.ctl with currentState := .Colon }⟩) 0 (.inr (.inl ⟨rfl, he⟩)) ho.1 hcv' (fun e => by rw [he] at e; cases e) hh').mono ?_
      rintro ⟨k, s'⟩ (h | ⟨w', hw', h⟩ | ⟨-, h, -⟩)
      · exact .inl h
      · refine .inr ⟨ho, w ++ [0x3A] ++ w', ?_, ?_⟩
        · unfold Lead
          rw [hk]
          exact ⟨w, w', hw, hw', rfl⟩
        · have := (mark_state .Colon).1 h
          simpa [punctOf] using this
      · cases h

variable (hg : ∀ w, LSpace w → g.Space w)
include hg

/-- The next element of an array, or its end. -/
theorem elem_step {c : JCtl × Bytes} {s : JsonP} (h : JInA D conv g c s) : Yields (fun x => JLost x.2 ∨ (x.1 = .ArrayEnd ∧ JAfter D conv g c x.2) ∨
    (x.1 ≠ .ArrayEnd ∧ ∃ e, JTold D conv e x.1 x.2 ∧ ∀ s', JAfter D conv g e s' → JLost s' ∨ JInA D conv g c s')) s.getNextToken := by
  obtain ⟨c, pre⟩ := c
  obtain ⟨ho, hcv, ld, hld, ⟨hc, post, hh⟩ | ⟨hc, t, post, hE, hh⟩⟩ := h
  · dsimp only at ho hld hc hh
    rw [next_step (by rw [hc]; exact ho.1) (by rw [hc]; simp) (by rw [hc]; simp)]
    refine (value_due 1 (.inr (.inr (.inl (by rw [hc]; exact ⟨rfl, rfl⟩)))) (by rw [hc]; exact ho.1) hcv (by rw [hc]; simp) hh).mono ?_
    rintro ⟨k, s'⟩ (h | ⟨w, hw, h⟩ | ⟨h1, -, h2, w, post', p, ps, hw, hp, h3, h4⟩)
    · exact .inl h
    · refine .inr (.inr ⟨?_, (s.ctl, pre ++ ld ++ [0x5B]), ⟨⟨by rw [hc]; exact ho.1, by rw [hc]; simp⟩, w, ?_, h⟩, ?_⟩)
      · rintro rfl; exact h
      · unfold Lead; rw [hc]; exact hw
      · rintro s2 ⟨-, ha, hcv2, ⟨l2, v, post2, hl2, hv, hh2⟩ | ⟨e, -⟩⟩
        · right
          refine ⟨ho, hcv2, ld, hld, .inr ⟨?_, l2 ++ v, post2, .one ?_ hv, by simpa using hh2⟩⟩
          · rw [ha]; simp only [hc]
          · unfold Lead at hl2
            rw [hc] at hl2
            exact hg _ hl2
        · simp only [hc] at e; cases e
    · refine .inr (.inl ⟨h1, ho, ?_, h2, .inl ⟨ld, [0x5B] ++ w ++ [0x5D], post', hld, .arr0 (hg _ hw), by simpa using h4⟩⟩)
      rw [h3]
      rw [hc] at hp
      obtain ⟨rfl, rfl⟩ := List.cons.inj hp
      simp only [hc]
  · dsimp only at ho hld hc hh
    rw [next_step (by rw [hc]; exact ho.1) (by rw [hc]; simp) (by rw [hc]; simp)]
    have hf : ∀ x, s.ctl.feed x = if x = .comma then .ok (none, { s.ctl with currentState := .CommaA }) else
        if x = .rbracket then .ok (some .ArrayEnd, { c with currentState := c.currentEnd }) else .ok (some .Error, { s.ctl with currentState := .Error }) := by
      intro x
      unfold JCtl.feed
      rw [hc]
      cases x <;> rfl
    refine sep_step 1 (by rw [hc]; exact ho.1) (x0 := .comma) (st := .CommaA) (hf _) hcv hh ?_ ?_ ?_ ?_
    · exact fun l => .inl ⟨by rw [hc]; exact ho.1, .inl rfl⟩
    · intro x l k c' w post' hx h1 h2 hw hcv' hh' _
      rw [hf, if_neg hx] at h1
      split at h1
      · next hx =>
        subst hx
        cases h1
        exact .inr (.inl ⟨rfl, ho, rfl, hcv', .inl ⟨ld, [0x5B] ++ t ++ w ++ [0x5D], post', hld, .arr hE (hg _ hw), by simpa [punctOf] using hh'⟩⟩)
      · cases h1
        exact absurd rfl h2
    · intro x hx
      rw [hf, if_neg hx]
      split
      · exact .inl ⟨_, _, rfl, by simp⟩
      · exact .inr (.inl rfl)
    · intro l w post' hw hcv' hb' hh'
      refine (value_due (s := ⟨l, { s.ctl with currentState := .CommaA }⟩) 0 (.inr (.inr (.inr ⟨rfl, by simp only [hc]⟩))) (by simp only [hc]; exact ho.1) hcv' (by simp only [hc]; simp) hh').mono ?_
      rintro ⟨k, s'⟩ (h | ⟨w', hw', h⟩ | ⟨-, h, -⟩)
      · exact .inl h
      · refine .inr (.inr ⟨?_, (s.ctl, pre ++ ld ++ [0x5B] ++ t), ⟨⟨by rw [hc]; exact ho.1, by rw [hc]; simp⟩, w ++ [0x2C] ++ w', ?_, ?_⟩, ?_⟩)
        · rintro rfl; exact h
        · unfold Lead; rw [hc]; exact ⟨w, w', hw, hw', rfl⟩
        · have := (mark_state .CommaA).1 h
          simpa [punctOf] using this
        · rintro s2 ⟨-, ha, hcv2, ⟨l2, v, post2, hl2, hv, hh2⟩ | ⟨e, -⟩⟩
          · right
            unfold Lead at hl2
            rw [hc] at hl2
            obtain ⟨w1, w2, hw1, hw2, rfl⟩ := hl2
            refine ⟨ho, hcv2, ld, hld, .inr ⟨?_, t ++ (w1 ++ [0x2C] ++ w2) ++ v, post2, .more hE (hg _ hw1) (hg _ hw2) hv, by simpa using hh2⟩⟩
            rw [ha]; simp only [hc]
          · simp only [hc] at e; cases e
      · cases h

/-- The next key of an object, or its end. -/
theorem member_step {c : JCtl × Bytes} {s : JsonP} (h : JInM D conv g c s) : Yields (fun x => (x.1 = .Error ∧ JLost x.2) ∨
    (x.1 = .MapEnd ∧ JAfter D conv g c x.2) ∨ (x.1 = .Key ∧ JKeyAt D conv g c x.2)) s.getNextToken := by
  obtain ⟨c, pre⟩ := c
  obtain ⟨ho, hcv, ld, hld, ⟨hc, post, hh⟩ | ⟨hc, t, post, hE, hh⟩⟩ := h
  · dsimp only at ho hld hc hh
    rw [next_step (by rw [hc]; exact ho.1) (by rw [hc]; simp) (by rw [hc]; simp)]
    have hf : ∀ x, s.ctl.feed x = if x = .string then .ok (some .Key, { s.ctl with currentState := .Key }) else
        if x = .rbrace then .ok (some .MapEnd, { c with currentState := c.currentEnd }) else .ok (some .Error, { s.ctl with currentState := .Error }) := by
      intro x
      unfold JCtl.feed
      rw [hc]
      cases x <;> rfl
    unfold JsonP.lexStep
    obtain ⟨x, l', hy, w, post', hw, -, hh, hs, ht, hn, hbf, hcv'⟩ := yylex_lax hh
    rw [hy]
    dsimp only
    rw [hf]
    by_cases hx : x = .string
    · subst hx
      rw [if_pos rfl]
      refine .ok (.inr (.inr ⟨rfl, ho, hcv'.trans hcv, ld, hld, ht, by simp only [hc], w, post', hs rfl, by simpa [punctOf] using hh, .inl hw⟩))
    rw [if_neg hx]
    by_cases hx : x = .rbrace
    · subst hx
      rw [if_pos rfl]
      exact .ok (.inr (.inl ⟨rfl, ho, rfl, hcv'.trans hcv, .inl ⟨ld, [0x7B] ++ w ++ [0x7D], post', hld, .obj0 (hg _ hw), by simpa [punctOf] using hh⟩⟩))
    rw [if_neg hx]
    exact .ok (.inl ⟨rfl, by rw [hc]; exact ho.1, .inl rfl⟩)
  · dsimp only at ho hld hc hh
    rw [next_step (by rw [hc]; exact ho.1) (by rw [hc]; simp) (by rw [hc]; simp)]
    have hf : ∀ x, s.ctl.feed x = if x = .comma then .ok (none, { s.ctl with currentState := .CommaM }) else
        if x = .rbrace then .ok (some .MapEnd, { c with currentState := c.currentEnd }) else .ok (some .Error, { s.ctl with currentState := .Error }) := by
      intro x
      unfold JCtl.feed
      rw [hc]
      cases x <;> rfl
    refine sep_step 1 (by rw [hc]; exact ho.1) (x0 := .comma) (st := .CommaM) (hf _) hcv hh ?_ ?_ ?_ ?_
    · exact fun l => .inl ⟨rfl, by rw [hc]; exact ho.1, .inl rfl⟩
    · intro x l k c' w post' hx h1 h2 hw hcv' hh' _
      rw [hf, if_neg hx] at h1
      split at h1
      · next hx =>
        subst hx
        cases h1
        exact .inr (.inl ⟨rfl, ho, rfl, hcv', .inl ⟨ld, [0x7B] ++ t ++ w ++ [0x7D], post', hld, .obj hE (hg _ hw), by simpa [punctOf] using hh'⟩⟩)
      · cases h1
        exact absurd rfl h2
    · intro x hx
      rw [hf, if_neg hx]
      split
      · exact .inl ⟨_, _, rfl, by simp⟩
      · exact .inr (.inl rfl)
    · intro l w post' hw hcv' hb' hh'
      have hf2 : ∀ x, ({ s.ctl with currentState := .CommaM } : JCtl).feed x = if x = .string then .ok (some .Key, { s.ctl with currentState := .Key }) else
          .ok (some .Error, { s.ctl with currentState := .Error }) := by
        intro x
        unfold JCtl.feed
        cases x <;> rfl
      unfold JsonP.lexStep
      obtain ⟨x, l', hy, w', post', hw', -, hh, hs, ht, hn, hbf, hcv2⟩ := yylex_lax (l := l) hh'
      dsimp only
      rw [hy]
      dsimp only
      rw [hf2]
      by_cases hx : x = .string
      · subst hx
        rw [if_pos rfl]
        refine .ok (.inr (.inr ⟨rfl, ho, hcv2.trans hcv', ld, hld, ht, by simp only [hc], t ++ (w ++ [0x2C] ++ w'), post', hs rfl, by simpa [punctOf] using hh,
          .inr ⟨t, w, w', hE, hw, hw', rfl⟩⟩))
      · rw [if_neg hx]
        exact .ok (.inl ⟨rfl, by rw [hc]; exact ho.1, .inl rfl⟩)

omit hg in
/-- A key has been read or skipped. -/
theorem key_step {c : JCtl × Bytes} {s s' : JsonP} {K : Bytes → Prop} (hg : ∀ w, LSpace w → g.Space w) (hK : ∀ t, K t → g.key t) (h : JKeyAt D conv g c s)
    (hc' : s'.ctl = s.ctl) (hcv' : s'.lex.convertBackSlash = conv) (ht : ∀ pre post, Here D pre post s.lex.inp → startsAs .string post → Took D pre False K s'.lex.inp) :
    JLost s' ∨ ∃ e, JAt D conv e s' ∧ ∀ s2, JAfter D conv g e s2 → JLost s2 ∨ JInM D conv g c s2 := by
  obtain ⟨c, pre⟩ := c
  obtain ⟨ho, hcv, ld, hld, -, hc, q, post, hs, hh, hq⟩ := h
  dsimp only at ho hld hc hh
  rcases ht _ _ hh hs with ⟨k, post', hk, hh'⟩ | ⟨h1, h2, -⟩
  · right
    refine ⟨(s.ctl, pre ++ ld ++ [0x7B] ++ q ++ k), ⟨⟨by rw [hc]; exact ho.1, by rw [hc]; simp⟩, .inr (by rw [hc]), hc', hcv', by simp only [hc]; simp, post', hh'⟩, ?_⟩
    rintro s2 ⟨-, ha, hcv2, ⟨l2, v, post2, hl2, hv, hh2⟩ | ⟨e, -⟩⟩
    · right
      unfold Lead at hl2
      rw [hc] at hl2
      obtain ⟨w1, w2, hw1, hw2, rfl⟩ := hl2
      have hctl : s2.ctl = { c with currentState := .ValueM, parrentState := c.currentEnd :: c.parrentState, currentEnd := .ValueM } := by rw [ha]; simp only [hc]
      rcases hq with hq | ⟨t, w, w', hM, hw, hw', rfl⟩
      · exact ⟨ho, hcv2, ld, hld, .inr ⟨hctl, q ++ k ++ (w1 ++ [0x3A] ++ w2) ++ v, post2, .one (hg _ hq) (hK _ hk) (hg _ hw1) (hg _ hw2) hv, by simpa using hh2⟩⟩
      · exact ⟨ho, hcv2, ld, hld, .inr ⟨hctl, t ++ (w ++ [0x2C] ++ w') ++ k ++ (w1 ++ [0x3A] ++ w2) ++ v, post2, .more hM (hg _ hw) (hg _ hw') (hK _ hk) (hg _ hw1) (hg _ hw2) hv,
          by simpa using hh2⟩⟩
    · simp only [hc] at e; cases e
  · left
    refine ⟨by rw [hc', hc]; exact ho.1, .inr ⟨by rw [h1]; exact h2, .inr (.inr (by rw [hc', hc]))⟩⟩

omit hg in
/-- A scalar has been read or skipped. -/
theorem scalar_step {c : JCtl × Bytes} {s s' : JsonP} {K : Bytes → Prop} (hK : ∀ t, K t → g.scalar t) (h : JTold D conv c .Value s)
    (hc' : s'.ctl = s.ctl) (hcv' : s'.lex.convertBackSlash = s.lex.convertBackSlash)
    (ht : ∀ pre post, Here D pre post s.lex.inp → (c.1.currentEnd = .Done → s.lex.buffer = []) → Took D pre (c.1.currentEnd = .Done) K s'.lex.inp) :
    JLost s' ∨ JAfter D conv g c s' := by
  obtain ⟨c, pre⟩ := c
  obtain ⟨ho, ld, hld, hc, hcv, hb, x, post, -, -, -, -, hh⟩ := h
  dsimp only at ho hld hc hh ht hb
  rcases ht _ _ hh hb with ⟨k, post', hk, hh'⟩ | ⟨h1, h2, h3⟩
  · exact .inr ⟨ho, hc'.trans hc, hcv'.trans hcv, .inl ⟨ld, k, post', hld, .scalar (hK _ hk), hh'⟩⟩
  · by_cases hd : c.currentEnd = .Done
    · exact .inr ⟨ho, hc'.trans hc, hcv'.trans hcv, .inr ⟨hd, h3 hd⟩⟩
    · left
      refine ⟨by rw [hc', hc]; exact ho.1, .inr ⟨by rw [h1]; exact h2, ?_⟩⟩
      rw [hc', hc]
      dsimp only
      rcases ho.2 with ⟨-, h⟩ | ⟨-, h⟩ | ⟨-, h⟩ | ⟨-, h⟩
      · exact absurd h hd
      · exact .inr (.inl h)
      · exact .inl h
      · exact .inl h

end

/-- The reads leave the control state and the setting alone. -/
theorem getString_conv {l : Lexer} : Yields (fun x => x.2.convertBackSlash = l.convertBackSlash) l.getStringInto := by
  unfold Lexer.getStringInto
  dsimp only
  split
  · exact .throwStd
  · refine Yields.bind (P := fun _ => True) (fun _ _ => trivial) fun x _ => ?_
    refine Yields.bind (P := fun _ => True) (fun _ _ => trivial) fun x _ => ?_
    split <;> first | exact .ok rfl | exact Yields.bind (P := fun _ => True) (fun _ _ => trivial) fun x _ => .ok rfl

/-- The JSON parser keeps to the grammar. -/
theorem jsonTrack (D : Bytes) (S : Ty → Prop) (weak : Prop) (conv : Bool) :
    Track JsonP.ops S weak JLost (JAt D conv) (JTold D conv) (JInA D conv (lax S weak conv)) (JInM D conv (lax S weak conv))
      (JKeyAt D conv (lax S weak conv)) (JAfter D conv (lax S weak conv)) := by
  have hg : ∀ w, LSpace w → (lax S weak conv).Space w := fun w h => h
  have sc : ∀ {t}, (lax S weak conv).scalar t ↔ ((∃ k, S (.int k) ∧ WholeText k.signed t) ∨ (∃ f, S (.flt f) ∧ RealText t) ∨ (S .bool ∧ (t = b!"true" ∨ t = b!"false")) ∨ StrText conv t ∨
    (((∃ e, S (.uptr e)) ∨ ∃ b, S (.pptr b)) ∧ NullText t) ∨ (weak ∧ SkipText t)) := Iff.rfl
  have toldv : ∀ c s, JTold D conv c .Value s → s.lex.convertBackSlash = conv ∧ ∃ x, s.lex.lastToken = some x ∧ punctOf x = [] ∧ s.lex.lastNull = decide (x = .null_) ∧
      ∀ p q, Here D p q s.lex.inp → startsAs x q := by
    rintro c s ⟨-, l, -, h1, h2, -, x, post, h3, h4, h5, h6, h7⟩
    exact ⟨h2, x, h3, h4, h6, fun p q h => by rw [← h.rest, h7.rest]; exact h5⟩
  have lat : ∀ {α : Type} {s : JsonP} {f : Res (α × Lexer)}, JLost s → Yields (fun x => Sane s.lex.inp → Later s.lex.inp x.2.inp) f →
      Yields (fun x => JLost x.2) (do let (v, l) ← f; return (v, { s with lex := l }) : Res (α × JsonP)) := by
    intro α s f h hl
    exact hl.bind fun x hx => .ok (h.later rfl hx)
  have sane : ∀ {α : Type} {r : Res α} {i : StrIn} {f : α → StrIn}, (Sane i → Yields (fun x => Later i (f x)) r) → Yields (fun x => Sane i → Later i (f x)) r :=
    fun h x e hs => h hs x e
  refine ⟨fun s h => h.next, ?_, ?_, ?_, ?_, ?_, ?_, fun c s h => at_step h, ?_, ?_, ?_, ?_, ?_, ?_, ?_, ?_, ?_, fun c s h => elem_step hg h,
    fun c s h => member_step hg h, ?_, ?_, ?_⟩
  · exact fun s h => lat h (sane fun hs => (later_getStringInto hs).bind fun x hx => .ok hx)
  · exact fun k s h => lat h (sane fun hs => later_scanInt k hs)
  · exact fun f s h => lat h (sane fun hs => later_scanFlt f hs)
  · exact fun s h => lat h (sane fun hs => later_getLastBool)
  · exact fun s h => lat h (sane fun hs => later_getStringInto hs)
  · intro s h
    exact Yields.bind (P := fun x => Sane s.lex.inp → Later s.lex.inp x.inp) (fun x e hs => later_ignoreRaw hs x e) fun x hx => .ok (h.later rfl hx)
  · exact ⟨({ JCtl.init with started := false }, []), fun s h => by cases h.1.1⟩
  · rintro c s ⟨-, l, -, h⟩; exact h
  · rintro c s ⟨ho, l, hl, h1, h2, -, post, h3⟩
    exact ⟨ho, h2, l, hl, .inl ⟨h1, post, h3⟩⟩
  · rintro c s ⟨ho, l, hl, h1, h2, -, post, h3⟩
    exact ⟨ho, h2, l, hl, .inl ⟨h1, post, h3⟩⟩
  · intro c k s h hn hS
    have hk : k = .Value := by
      obtain ⟨-, l, -, h⟩ := h
      cases k <;> first | rfl | exact h.elim | (obtain ⟨-, -, h, -⟩ := h; exact absurd (hn.symm.trans h) (by simp))
    subst hk
    obtain ⟨h2, x, h3, h4, h5, h6⟩ := toldv c s h
    have hx : x = .null_ := by
      have : s.lex.lastNull = true := hn
      rw [h5] at this
      simpa using this
    intro s' e
    refine scalar_step (K := NullText) (fun t ht => sc.2 (.inr (.inr (.inr (.inr (.inl ⟨hS, ht⟩)))))) h (reads_ctl.2.2.2.2.2 s' e) ?_ ?_
    · obtain ⟨l, e1, e2⟩ := Res.bind_eq_ok.1 e
      cases e2
      exact reads_conv.2.2.2 l e1
    · intro p q hh _
      obtain ⟨l, e1, e2⟩ := Res.bind_eq_ok.1 e
      cases e2
      exact (ignoreRaw_lax _ h3 h4 (h6 _ _ hh) hh l e1).mono fun t ht => ht.2.1 hx
  · intro c k s h hS s' e
    obtain ⟨⟨v, l⟩, e1, e2⟩ := Res.bind_eq_ok.1 e
    cases e2
    exact scalar_step (K := WholeText k.signed) (fun t ht => sc.2 (.inl ⟨k, hS, ht⟩)) h rfl (reads_conv.1 k _ e1) fun p q hh _ => scanInt_lax _ k hh _ e1
  · intro c k s h hS s' e
    obtain ⟨⟨v, l⟩, e1, e2⟩ := Res.bind_eq_ok.1 e
    cases e2
    exact scalar_step (K := RealText) (fun t ht => sc.2 (.inr (.inl ⟨k, hS, ht⟩))) h rfl (reads_conv.2.1 k _ e1) fun p q hh _ => scanFlt_lax _ k hh _ e1
  · intro c s h hS s' e
    obtain ⟨⟨v, l⟩, e1, e2⟩ := Res.bind_eq_ok.1 e
    cases e2
    exact scalar_step (K := fun t => t = b!"true" ∨ t = b!"false") (fun t ht => sc.2 (.inr (.inr (.inl ⟨hS, ht⟩)))) h rfl (reads_conv.2.2.1 _ e1) fun p q hh hb => getLastBool_lax _ hb hh _ e1
  · intro c s h s' e
    obtain ⟨⟨v, l⟩, e1, e2⟩ := Res.bind_eq_ok.1 e
    cases e2
    exact scalar_step (K := StrText s.lex.convertBackSlash) (fun t ht => sc.2 (.inr (.inr (.inr (.inl ((toldv c s h).1 ▸ ht)))))) h rfl (getString_conv _ e1)
      fun p q hh _ => getStringInto_lax _ hh _ e1
  · intro c s h s' e
    obtain ⟨⟨v, l⟩, e1, e2⟩ := Res.bind_eq_ok.1 e
    cases e2
    obtain ⟨⟨v', l'⟩, e3, e2⟩ := Res.bind_eq_ok.1 e1
    cases e2
    have hcv := h.2.1
    exact key_step (K := StrText s.lex.convertBackSlash) hg (fun t ht => .inl (hcv ▸ ht)) h rfl ((getString_conv _ e3).trans hcv) fun p q hh _ => getStringInto_lax _ hh _ e3
  · intro hw c s h s' e
    obtain ⟨h2, x, h3, h4, h5, h6⟩ := toldv c s h
    obtain ⟨l, e1, e2⟩ := Res.bind_eq_ok.1 e
    cases e2
    exact scalar_step (K := SkipText) (fun t ht => sc.2 (.inr (.inr (.inr (.inr (.inr ⟨hw, ht⟩)))))) h rfl (reads_conv.2.2.2 _ e1)
      fun p q hh _ => (ignoreRaw_lax _ h3 h4 (h6 _ _ hh) hh l e1).mono fun t ht => ht.1
  · intro hw c s h s' e
    obtain ⟨l, e1, e2⟩ := Res.bind_eq_ok.1 e
    cases e2
    have hcv := h.2.1
    have ht := h.2.2
    obtain ⟨_, _, ht, -⟩ := ht
    exact key_step (K := SkipString) hg (fun t ht => .inr ⟨hw, ht⟩) h rfl ((reads_conv.2.2.2 _ e1).trans hcv)
      fun p q hh hs => (ignoreRaw_lax _ ht rfl hs hh l e1).mono fun t ht => ht.2.2 rfl

end Thors
