import Verif.Model.JsonOps
import Verif.Proofs.JsonScan
import Verif.Proofs.Presents
/-
A source of JSON tokens that handles single lexemes correctly presents the tree of a whole text: the part of the
argument about JSON parsers that does not depend on where the characters come from.
-/
namespace Thors
open Spec StrIn

/-- Lexical class of a scalar. -/
def lexOf : JScalar → Lexeme
  | .null => .null_
  | .bool true => .true_
  | .bool false => .false_
  | .int _ _ | .frac _ _ => .number
  | .str _ => .string

/-- First character of a scalar. -/
theorem scalar_head {pr : Nat → Nat → Bytes} {x : JScalar} {t : Bytes} (h : ScalarText pr x t) :
    ∃ c cs, t = c :: cs ∧ Lexer.classify c = lexOf x ∧ isSpace c = false ∧ isPunct c = false := by
  have hlit : ∀ {a : Bytes} {i : Int}, IntLit a i → ∃ c cs, a = c :: cs ∧ Lexer.classify c = .number ∧ isSpace c = false ∧ isPunct c = false := by
    intro a i h
    cases h with
    | pos h =>
      obtain ⟨d, t, rfl, hd⟩ := digits_head ⟨_, h⟩
      have := digit_ne hd
      exact ⟨d, t, rfl, this.2.2.2.2.2.2.2.2.2, this.2.2.2.2.2.2.2.1, this.2.2.2.2.2.2.2.2.1⟩
    | neg h => exact ⟨_, _, rfl, by decide⟩
  cases x with
  | null => exact ⟨_, _, h, by decide⟩
  | bool b => cases b <;> exact ⟨_, _, h, by decide⟩
  | int t i =>
    obtain ⟨rfl, h, -⟩ := h
    exact hlit h
  | frac t x =>
    obtain ⟨rfl, ⟨a, i, f, e, h, -, -, -, -, rfl⟩, -⟩ := h
    obtain ⟨c, cs, rfl, h'⟩ := hlit h
    exact ⟨c, _, rfl, h'⟩
  | str s => exact ⟨_, _, h.2, by simp [lexOf, Lexer.classify], by decide⟩

/-- What may stand in front of a value in the control state `c`. -/
inductive Pre : JCtl → Bytes → Prop
  | init {ps w} (hw : Ws w) : Pre ⟨.Done, .Init, ps, true⟩ w
  | first {ps w} (hw : Ws w) : Pre ⟨.ValueA, .OpenA, ps, true⟩ w
  | next {ps w1 w2} (hw1 : Ws w1) (hw2 : Ws w2) : Pre ⟨.ValueA, .ValueA, ps, true⟩ (w1 ++ 0x2C :: w2)
  | member {ps w1 w2} (hw1 : Ws w1) (hw2 : Ws w2) : Pre ⟨.ValueM, .Key, ps, true⟩ (w1 ++ 0x3A :: w2)

/-- The control state after a value. -/
def JCtl.done (c : JCtl) : JCtl := { c with currentState := c.currentEnd }

/-- Effect of the first lexeme of a value on the control state. -/
def JCtl.begin (c : JCtl) : Lexeme → Option (Tok × JCtl)
  | .lbrace => some (.MapStart, ⟨.ValueM, .OpenM, c.currentEnd :: c.parrentState, true⟩)
  | .lbracket => some (.ArrayStart, ⟨.ValueA, .OpenA, c.currentEnd :: c.parrentState, true⟩)
  | .true_ | .false_ | .null_ | .string | .number => some (.Value, c.done)
  | _ => none

theorem ws_ends {w t : Bytes} (hw : Ws w) (ht : valueEnds t) : valueEnds (w ++ t) := by
  cases w with
  | nil => exact ht
  | cons c w =>
    refine valueEnds_sep ?_
    rcases hw c (by simp) with h | h | h | h <;> simp [h]

/-- Pieces after the first, each with its comma in front. -/
def tails : List Bytes → Bytes
  | [] => []
  | p :: ps => 0x2C :: (p ++ tails ps)

theorem commas_eq (p : Bytes) (ps : List Bytes) : commas (p :: ps) = p ++ tails ps := by
  induction ps generalizing p with
  | nil => simp [commas, tails]
  | cons q ps ih => simp [commas, tails, ih q]

theorem tails_ends {ps : List Bytes} {t : Bytes} (ht : valueEnds t) : valueEnds (tails ps ++ t) := by
  cases ps with
  | nil => exact ht
  | cons p ps => exact valueEnds_sep (by simp)

theorem pre_started {c : JCtl} {pre : Bytes} (h : Pre c pre) : c.started = true := by cases h <;> rfl

/-- A parser that handles single lexemes correctly. `At c text s`: control state `c`, in front of `text`. `Lx c ch t s`: the lexeme
that starts with `ch` has just been announced, `t` follows `ch`. -/
structure JSource {σ : Type} (o : POps σ) (sem : ScalarSem JStr JScalar) where
  At : JCtl → Bytes → σ → Prop
  /-- what may follow a scalar: at least every separator -/
  Fine : JScalar → Bytes → Prop
  fine : ∀ {x : JScalar} {c : Byte} {t : Bytes}, valueEnds (c :: t) → Fine x (c :: t)
  Lx : JCtl → Byte → Bytes → σ → Prop
  /-- one token without a separator in front -/
  next_lex : ∀ {c c' : JCtl} {tok : Tok} {w : Bytes} {ch : Byte} {t : Bytes} {s : σ}, c.started = true → c.currentState ≠ .Done →
    c.currentState ≠ .Error → At c (w ++ ch :: t) s → Ws w → isSpace ch = false → c.feed (Lexer.classify ch) = .ok (some tok, c') →
    ∃ s', o.next s = .ok (tok, s') ∧ Lx c' ch t s'
  /-- one token with a separator in front -/
  next_sep : ∀ {c c1 c' : JCtl} {tok : Tok} {w1 w2 : Bytes} {sep ch : Byte} {t : Bytes} {s : σ}, c.started = true → c.currentState ≠ .Done →
    c.currentState ≠ .Error → At c (w1 ++ sep :: (w2 ++ ch :: t)) s → Ws w1 → Ws w2 → isSpace sep = false → isPunct sep = true →
    isSpace ch = false → c.feed (Lexer.classify sep) = .ok (none, c1) → c1.feed (Lexer.classify ch) = .ok (some tok, c') →
    ∃ s', o.next s = .ok (tok, s') ∧ Lx c' ch t s'
  lx_punct : ∀ {c : JCtl} {ch : Byte} {t : Bytes} {s : σ}, isPunct ch = true → Lx c ch t s → At c t s
  lx_null : ∀ {c : JCtl} {ch : Byte} {t : Bytes} {s : σ}, Lx c ch t s → o.isNull s = decide (Lexer.classify ch = .null_)
  scalar : ∀ {c : JCtl} {x : JScalar} {ch : Byte} {cs post : Bytes} {s : σ}, ScalarText codePair x (ch :: cs) → Fine x post →
    Lx c ch (cs ++ post) s → After o sem (.scalar x) (At c post) s
  key : ∀ {c : JCtl} {k : JStr} {rest : Bytes} {s : σ}, Body codePair k.raw k.dec → Lx c 0x22 (k.raw ++ 0x22 :: rest) s →
    (∃ s2, o.getKey s = .ok (sem.key k, s2) ∧ At c rest s2) ∧ (sem.keySkips k = true → ∃ s2, o.ignoreData s = .ok s2 ∧ At c rest s2)

namespace JSource
variable {σ : Type} {o : POps σ} {sem : ScalarSem JStr JScalar} (S : JSource o sem)

/-- The first token of a value. -/
theorem next_value {c c' : JCtl} {tok : Tok} {pre : Bytes} {ch : Byte} {t : Bytes} {s : σ} (hp : Pre c pre)
    (h : S.At c (pre ++ ch :: t) s) (hch : isSpace ch = false) (hb : c.begin (Lexer.classify ch) = some (tok, c')) :
    ∃ s', o.next s = .ok (tok, s') ∧ S.Lx c' ch t s' := by
  generalize hx : Lexer.classify ch = x at hb
  cases hp with
  | init hw =>
    refine S.next_lex rfl (by simp) (by simp) h hw hch ?_
    rw [hx]
    cases x <;> simp [JCtl.begin] at hb <;> obtain ⟨rfl, rfl⟩ := hb <;> rfl
  | first hw =>
    refine S.next_lex rfl (by simp) (by simp) h hw hch ?_
    rw [hx]
    cases x <;> simp [JCtl.begin] at hb <;> obtain ⟨rfl, rfl⟩ := hb <;> rfl
  | next hw1 hw2 =>
    simp only [List.append_assoc, List.cons_append] at h
    refine S.next_sep (c1 := ⟨.ValueA, .CommaA, _, true⟩) rfl (by simp) (by simp) h hw1 hw2 (by decide) (by decide) hch rfl ?_
    rw [hx]
    cases x <;> simp [JCtl.begin] at hb <;> obtain ⟨rfl, rfl⟩ := hb <;> rfl
  | member hw1 hw2 =>
    simp only [List.append_assoc, List.cons_append] at h
    refine S.next_sep (c1 := ⟨.ValueM, .Colon, _, true⟩) rfl (by simp) (by simp) h hw1 hw2 (by decide) (by decide) hch rfl ?_
    rw [hx]
    cases x <;> simp [JCtl.begin] at hb <;> obtain ⟨rfl, rfl⟩ := hb <;> rfl

/-- What may follow a value. -/
def End : JTree → Bytes → Prop
  | .scalar x, post => S.Fine x post
  | _, _ => True

theorem end_of {v : JTree} {c : Byte} {t : Bytes} (h : valueEnds (c :: t)) : S.End v (c :: t) := by
  cases v with
  | scalar x => exact S.fine h
  | _ => trivial

theorem end_tails {v : JTree} {w : Bytes} {ps : List Bytes} {c : Byte} {t : Bytes} (hw : Ws w) (h : valueEnds (c :: t)) :
    S.End v (w ++ (tails ps ++ c :: t)) := by
  have h1 := ws_ends hw (tails_ends (ps := ps) h)
  generalize hx : w ++ (tails ps ++ c :: t) = x at h1 ⊢
  cases x with
  | nil => simp at hx
  | cons d x => exact S.end_of h1

/-- Statement of the theorem for one tree. -/
def PresentsText (v : JTree) : Prop :=
  ∀ (t : Bytes), JText codePair v t → ∀ (c : JCtl) (pre post : Bytes) (s : σ), Pre c pre → S.End v post → S.At c (pre ++ t ++ post) s →
    Presents o sem v (S.At c.done post) s

theorem presents_scalar (x : JScalar) : S.PresentsText (.scalar x) := by
  intro t ht c pre post s hp hpost h
  obtain ⟨ch, cs, rfl, h1, h2, h3⟩ := scalar_head ht
  rw [List.append_assoc, List.cons_append] at h
  have hb : c.begin (Lexer.classify ch) = some (.Value, c.done) := by
    rw [h1]
    cases x with
    | bool b => cases b <;> rfl
    | _ => rfl
  obtain ⟨s', e1, hl⟩ := S.next_value hp h h2 hb
  exact ⟨_, e1, S.scalar ht hpost hl⟩

/-- Closing an array. -/
theorem close_arr {c : JCtl} {st : JState} {w post : Bytes} {s : σ} (hst : st = .OpenA ∨ st = .ValueA) (hw : Ws w) (hc : c.started = true)
    (h : S.At ⟨.ValueA, st, c.currentEnd :: c.parrentState, true⟩ (w ++ 0x5D :: post) s) :
    ∃ s1, o.next s = .ok (.ArrayEnd, s1) ∧ S.At c.done post s1 := by
  have hx : Lexer.classify 0x5D = .rbracket := by decide
  have : ∃ s1, o.next s = .ok (.ArrayEnd, s1) ∧ S.Lx c.done 0x5D post s1 := by
    obtain ⟨ce, cs, ps, st'⟩ := c
    simp only at hc
    subst hc
    rcases hst with rfl | rfl
    · exact S.next_lex rfl (by simp) (by simp) h hw (by decide) (by rw [hx]; rfl)
    · exact S.next_lex rfl (by simp) (by simp) h hw (by decide) (by rw [hx]; rfl)
  obtain ⟨s1, e, hl⟩ := this
  exact ⟨_, e, S.lx_punct (by decide) hl⟩

/-- Closing an object. -/
theorem close_obj {c : JCtl} {st : JState} {w post : Bytes} {s : σ} (hst : st = .OpenM ∨ st = .ValueM) (hw : Ws w) (hc : c.started = true)
    (h : S.At ⟨.ValueM, st, c.currentEnd :: c.parrentState, true⟩ (w ++ 0x7D :: post) s) :
    ∃ s1, o.next s = .ok (.MapEnd, s1) ∧ S.At c.done post s1 := by
  have hx : Lexer.classify 0x7D = .rbrace := by decide
  have : ∃ s1, o.next s = .ok (.MapEnd, s1) ∧ S.Lx c.done 0x7D post s1 := by
    obtain ⟨ce, cs, ps, st'⟩ := c
    simp only at hc
    subst hc
    rcases hst with rfl | rfl
    · exact S.next_lex rfl (by simp) (by simp) h hw (by decide) (by rw [hx]; rfl)
    · exact S.next_lex rfl (by simp) (by simp) h hw (by decide) (by rw [hx]; rfl)
  obtain ⟨s1, e, hl⟩ := this
  exact ⟨_, e, S.lx_punct (by decide) hl⟩

/-- The elements after the first. -/
theorem elems_tail {c : JCtl} (hc : c.started = true) {post : Bytes} (vs : List JTree) (ih : ∀ v ∈ vs, S.PresentsText v) :
    ∀ (ps : List Bytes) (w : Bytes) (s : σ), JText.elems codePair vs ps → Ws w →
      S.At ⟨.ValueA, .ValueA, c.currentEnd :: c.parrentState, true⟩ (w ++ (tails ps ++ 0x5D :: post)) s →
      After.elems o sem vs (S.At c.done post) s := by
  induction vs with
  | nil =>
    intro ps w s hps hw h
    simp only [JText.elems] at hps
    subst hps
    exact S.close_arr (.inr rfl) hw hc h
  | cons v vs ih2 =>
    intro ps w s hps hw h
    obtain ⟨w1, tv, w2, ps', hw1, hw2, htv, hps', rfl⟩ := hps
    simp only [tails] at h
    have := ih v (by simp) tv htv ⟨.ValueA, .ValueA, c.currentEnd :: c.parrentState, true⟩ (w ++ 0x2C :: w1) (w2 ++ (tails ps' ++ 0x5D :: post)) s
      (.next hw hw1) (S.end_tails hw2 (valueEnds_sep (by simp))) (by simpa using h)
    obtain ⟨s1, e1, h1⟩ := this
    exact ⟨s1, e1, after_mono _ _ v (fun s hs => ih2 (fun v hv => ih v (by simp [hv])) ps' w2 s hps' hw2 hs) h1⟩

/-- A member, from its key on. -/
theorem member_after {ps : List JState} {k : JStr} {v : JTree} {w2 w3 tv post : Bytes} {Q : σ → Prop} {s1 : σ} (hk : Body codePair k.raw k.dec)
    (hw2 : Ws w2) (hw3 : Ws w3) (htv : JText codePair v tv) (ih : S.PresentsText v) (hpost : S.End v post)
    (hQ : ∀ s, S.At ⟨.ValueM, .ValueM, ps, true⟩ post s → Q s)
    (hl : S.Lx ⟨.ValueM, .Key, ps, true⟩ 0x22 (k.raw ++ [0x22] ++ w2 ++ [0x3A] ++ w3 ++ tv ++ post) s1) :
    (∃ s2, o.getKey s1 = .ok (sem.key k, s2) ∧ ∃ s3, o.next s2 = .ok (v.tok, s3) ∧ After o sem v Q s3) ∧
    (sem.keySkips k = true → ∃ s2, o.ignoreData s1 = .ok s2 ∧ ∃ s3, o.next s2 = .ok (v.tok, s3) ∧ After o sem v Q s3) := by
  have hl' : S.Lx ⟨.ValueM, .Key, ps, true⟩ 0x22 (k.raw ++ 0x22 :: (w2 ++ 0x3A :: w3 ++ tv ++ post)) s1 := by simpa using hl
  have key : ∀ s2, S.At ⟨.ValueM, .Key, ps, true⟩ (w2 ++ 0x3A :: w3 ++ tv ++ post) s2 →
      ∃ s3, o.next s2 = .ok (v.tok, s3) ∧ After o sem v Q s3 := by
    intro s2 h2
    obtain ⟨s3, e3, h3⟩ := ih tv htv _ _ post s2 (.member hw2 hw3) hpost h2
    exact ⟨s3, e3, after_mono _ _ v hQ h3⟩
  obtain ⟨h1, h2⟩ := S.key hk hl'
  constructor
  · obtain ⟨s2, e, h⟩ := h1
    exact ⟨s2, e, key s2 h⟩
  · intro hs
    obtain ⟨s2, e, h⟩ := h2 hs
    exact ⟨s2, e, key s2 h⟩

/-- The members after the first. -/
theorem members_tail {c : JCtl} (hc : c.started = true) {post : Bytes} (ms : List (JStr × JTree)) (ih : ∀ m ∈ ms, S.PresentsText m.2) :
    ∀ (ps : List Bytes) (w : Bytes) (s : σ), JText.members codePair ms ps → Ws w →
      S.At ⟨.ValueM, .ValueM, c.currentEnd :: c.parrentState, true⟩ (w ++ (tails ps ++ 0x7D :: post)) s →
      After.members o sem ms (S.At c.done post) s := by
  induction ms with
  | nil =>
    intro ps w s hps hw h
    simp only [JText.members] at hps
    subst hps
    exact S.close_obj (.inr rfl) hw hc h
  | cons m ms ih2 =>
    obtain ⟨k, v⟩ := m
    intro ps w s hps hw h
    obtain ⟨w1, w2, w3, tv, w4, ps', hw1, hw2, hw3, hw4, hk, htv, hps', rfl⟩ := hps
    simp only [tails] at h
    obtain ⟨l, e1, hl⟩ := S.next_sep (c := ⟨.ValueM, .ValueM, c.currentEnd :: c.parrentState, true⟩) (c1 := ⟨.ValueM, .CommaM, _, true⟩)
      (c' := ⟨.ValueM, .Key, c.currentEnd :: c.parrentState, true⟩) (tok := .Key) (sep := 0x2C) (ch := 0x22) (w1 := w) (w2 := w1)
      (t := k.raw ++ [0x22] ++ w2 ++ [0x3A] ++ w3 ++ tv ++ (w4 ++ (tails ps' ++ 0x7D :: post))) (s := s)
      rfl (by simp) (by simp) (by simpa using h) hw hw1 (by decide) (by decide) (by decide) rfl rfl
    have := S.member_after (Q := After.members o sem ms (S.At c.done post)) hk hw2 hw3 htv (ih (k, v) (by simp))
      (S.end_tails hw4 (valueEnds_sep (by simp))) (fun s hs => ih2 (fun m hm => ih m (by simp [hm])) ps' w4 s hps' hw4 hs) hl
    exact ⟨_, e1, this⟩

/-- A parser in front of a JSON text presents the tree of that text. -/
theorem presents_text (v : JTree) : S.PresentsText v := by
  induction v using Spec.Tr.induct with
  | hs x => exact S.presents_scalar x
  | ha vs ih =>
    intro t ht c pre post s hp hpost h
    have hc := pre_started hp
    cases vs with
    | nil =>
      obtain ⟨w, hw, rfl⟩ := ht
      obtain ⟨s1, e1, hl⟩ := S.next_value (ch := 0x5B) (tok := .ArrayStart) (c' := ⟨.ValueA, .OpenA, c.currentEnd :: c.parrentState, true⟩) (t := w ++ 0x5D :: post)
        hp (by simpa using h) (by decide) (by rw [show Lexer.classify 0x5B = .lbracket by decide]; rfl)
      exact ⟨_, e1, S.lx_null hl, S.close_arr (.inl rfl) hw hc (S.lx_punct (by decide) hl)⟩
    | cons v vs =>
      obtain ⟨ps, hps, rfl⟩ := ht
      obtain ⟨w1, tv, w2, ps', hw1, hw2, htv, hps', rfl⟩ := hps
      rw [commas_eq] at h
      obtain ⟨s0, e1, hl⟩ := S.next_value (ch := 0x5B) (tok := .ArrayStart) (c' := ⟨.ValueA, .OpenA, c.currentEnd :: c.parrentState, true⟩)
        (t := w1 ++ tv ++ (w2 ++ (tails ps' ++ 0x5D :: post))) hp (by simpa using h) (by decide) (by rw [show Lexer.classify 0x5B = .lbracket by decide]; rfl)
      refine ⟨_, e1, S.lx_null hl, ?_⟩
      obtain ⟨s1, e2, h2⟩ := ih v (by simp) tv htv ⟨.ValueA, .OpenA, c.currentEnd :: c.parrentState, true⟩ w1 (w2 ++ (tails ps' ++ 0x5D :: post))
        s0 (.first hw1) (S.end_tails hw2 (valueEnds_sep (by simp))) (S.lx_punct (by decide) hl)
      exact ⟨s1, e2, after_mono _ _ v (fun s hs => S.elems_tail hc vs (fun v hv => ih v (by simp [hv])) ps' w2 s hps' hw2 hs) h2⟩
  | ho ms ih =>
    intro t ht c pre post s hp hpost h
    have hc := pre_started hp
    cases ms with
    | nil =>
      obtain ⟨w, hw, rfl⟩ := ht
      obtain ⟨s1, e1, hl⟩ := S.next_value (ch := 0x7B) (tok := .MapStart) (c' := ⟨.ValueM, .OpenM, c.currentEnd :: c.parrentState, true⟩) (t := w ++ 0x7D :: post)
        hp (by simpa using h) (by decide) (by rw [show Lexer.classify 0x7B = .lbrace by decide]; rfl)
      exact ⟨_, e1, S.lx_null hl, S.close_obj (.inl rfl) hw hc (S.lx_punct (by decide) hl)⟩
    | cons m ms =>
      obtain ⟨k, v⟩ := m
      obtain ⟨ps, hps, rfl⟩ := ht
      obtain ⟨w1, w2, w3, tv, w4, ps', hw1, hw2, hw3, hw4, hk, htv, hps', rfl⟩ := hps
      rw [commas_eq] at h
      obtain ⟨s1, e1, hl⟩ := S.next_value (ch := 0x7B) (tok := .MapStart) (c' := ⟨.ValueM, .OpenM, c.currentEnd :: c.parrentState, true⟩)
        (t := w1 ++ 0x22 :: (k.raw ++ [0x22] ++ w2 ++ [0x3A] ++ w3 ++ tv ++ (w4 ++ (tails ps' ++ 0x7D :: post)))) hp (by simpa using h) (by decide)
        (by rw [show Lexer.classify 0x7B = .lbrace by decide]; rfl)
      refine ⟨_, e1, S.lx_null hl, ?_⟩
      obtain ⟨l2, e2, hl2⟩ := S.next_lex (c := ⟨.ValueM, .OpenM, c.currentEnd :: c.parrentState, true⟩)
        (c' := ⟨.ValueM, .Key, c.currentEnd :: c.parrentState, true⟩) (tok := .Key) (s := s1)
        rfl (by simp) (by simp) (S.lx_punct (by decide) hl) hw1 (by decide) (by rw [show Lexer.classify 0x22 = .string by decide]; rfl)
      have := S.member_after (Q := After.members o sem ms (S.At c.done post)) hk hw2 hw3 htv (ih (k, v) (by simp))
        (S.end_tails hw4 (valueEnds_sep (by simp))) (fun s hs => S.members_tail hc ms (fun m hm => ih m (by simp [hm])) ps' w4 s hps' hw4 hs) hl2
      exact ⟨_, e2, this⟩

end JSource
end Thors
