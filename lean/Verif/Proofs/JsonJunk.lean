import Verif.Proofs.Watch
import Verif.Proofs.JsonPresents
import Verif.Proofs.JsonString2
/-
The lexer never goes back: whatever it reads from a text without closing brackets, none appears.
-/
namespace Thors
open Spec StrIn

/-- No closing bracket. -/
def NoClose (t : Bytes) : Prop := ∀ c ∈ t, c ≠ 0x5D ∧ c ≠ 0x7D

/-- Inside of the data the input is good. -/
def Sane (s : StrIn) : Prop := s.pos < s.data.length → s.good = true

/-- `s'` is not before `s`, and sane. -/
structure Later (s s' : StrIn) : Prop where
  data : s'.data = s.data
  pos : s.pos ≤ s'.pos ∨ s.data.length ≤ s'.pos
  sane : Sane s'

/-- What is left has no closing bracket. -/
structure Junk (s : StrIn) : Prop where
  text : NoClose s.rest
  sane : Sane s

theorem Later.refl {s : StrIn} (h : Sane s) : Later s s := ⟨rfl, .inl (Nat.le_refl _), h⟩

theorem Later.trans {a b c : StrIn} (h : Later a b) (h' : Later b c) : Later a c := by
  refine ⟨h'.data.trans h.data, ?_, h'.sane⟩
  have e := h.data
  rcases h.pos with p | p <;> rcases h'.pos with q | q
  · left; omega
  · right; rw [e] at q; exact q
  · right; omega
  · right; rw [e] at q; exact q

theorem Later.junk {s s' : StrIn} (h : Later s s') (hj : Junk s) : Junk s' := by
  refine ⟨?_, h.sane⟩
  intro c hc
  unfold StrIn.rest at hc
  rw [h.data] at hc
  rcases h.pos with p | p
  · apply hj.text
    unfold StrIn.rest
    obtain ⟨k, e⟩ : ∃ k, s'.pos = s.pos + k := ⟨s'.pos - s.pos, by omega⟩
    rw [e, ← List.drop_drop] at hc
    exact List.mem_of_mem_drop hc
  · rw [List.drop_eq_nil_of_le p] at hc; cases hc

theorem later_get {s : StrIn} (h : Sane s) : Later s s.get.2 := by
  unfold StrIn.get
  split
  · next hh => exact ⟨rfl, .inl (Nat.le_succ _), fun _ => hh.1⟩
  · exact .refl h

/-- A character was got from behind `p`. -/
structure Got (d : Bytes) (p : Nat) (next : Int) (s : StrIn) : Prop where
  data : s.data = d
  pos : p ≤ s.pos
  got : next ≠ EOFv → p + 1 ≤ s.pos
  sane : Sane s

theorem got_get {d : Bytes} {p : Nat} {s : StrIn} (h1 : s.data = d) (h2 : p ≤ s.pos) (h3 : Sane s) : Got d p s.get.1 s.get.2 := by
  unfold StrIn.get
  split
  · next hh => exact ⟨h1, by simp only; omega, by simp only; omega, fun _ => hh.1⟩
  · exact ⟨h1, h2, fun h => absurd rfl h, h3⟩

theorem Got.get {d : Bytes} {p : Nat} {n : Int} {s : StrIn} (h : Got d p n s) : Got d p s.get.1 s.get.2 := got_get h.data h.pos h.sane

theorem later_checkZero {s : StrIn} (h : Sane s) : Yields (Later s) (checkZero s) := by
  unfold checkZero
  split
  · next hp =>
    have hlt : s.pos < s.data.length := by
      unfold StrIn.peek at hp
      split at hp
      · assumption
      · exact absurd hp (by decide)
    dsimp only
    split
    · exact .throwStd
    · refine .ok ?_
      unfold StrIn.get
      rw [if_pos ⟨h hlt, hlt⟩]
      unfold StrIn.unget
      simp only [Nat.add_one_ne_zero, if_false, Nat.add_sub_cancel]
      exact ⟨rfl, .inl (Nat.le_refl _), fun _ => by simp; omega⟩
  · exact .ok (.refl h)

theorem later_fwd {s : StrIn} (n : Nat) : Later s { s with pos := s.pos + n, good := s.pos + n ≤ s.data.length } :=
  ⟨rfl, .inl (Nat.le_add_right _ _), fun h => by simp only at h ⊢; simpa using Nat.le_of_lt h⟩

theorem later_readInt {s : StrIn} (k : IntKind) (h : Sane s) : Yields (fun x => Later s x.2) (s.readInt k) := by
  unfold StrIn.readInt
  split
  · exact .ub
  · split
    · exact .ok (.refl h)
    · exact .ok (later_fwd _)
    · exact .ok (later_fwd _)

theorem later_readFlt {s : StrIn} (f : FKind) (h : Sane s) : Yields (fun x => Later s x.2) (s.readFlt f) := by
  unfold StrIn.readFlt
  split
  · exact .ub
  · split
    · exact .ok (.refl h)
    · exact .ok (later_fwd _)
    · exact .ok (later_fwd _)

theorem later_readTo {s : StrIn} (d : Byte) : Yields (fun x => Later s x.2.2) (s.readTo d) := by
  unfold StrIn.readTo
  split
  · exact .throwStd
  · exact .ok (later_fwd _)

theorem later_read {s : StrIn} (n : Nat) : Yields (fun x => Later s x.2.2) (s.read n) := by
  unfold StrIn.read
  split
  · exact .ub
  · exact .ok (later_fwd _)

theorem later_ignore {s : StrIn} (n : Nat) : Later s (s.ignore n) := later_fwd n

theorem later_readMore : ∀ (f : Nat) (s : StrIn) (v : Bytes), Yields (fun x => Later s x.2) (Lexer.readMore f s v)
  | 0, _, _ => .ub
  | f + 1, s, v => by
    unfold Lexer.readMore
    refine (later_readTo 0x22).bind fun x hx => ?_
    obtain ⟨tmp, g, s1⟩ := x
    dsimp only at hx ⊢
    split
    · exact (later_readMore f s1 _).mono fun y hy => hx.trans hy
    · exact .ok hx

theorem later_readChar (s : StrIn) : Later s s.readChar.2 ∧ Later s s.readChar.2.unget := by
  unfold StrIn.readChar
  dsimp only
  generalize hp : (if s.pos ≤ s.data.length then s.pos + spaces (s.data.drop s.pos) else s.data.length) = p
  have hp' : s.pos ≤ p ∨ s.data.length ≤ p := by
    split at hp
    · left; omega
    · right; omega
  constructor
  · refine ⟨rfl, by dsimp only; omega, fun h => by dsimp only at h ⊢; simpa using Nat.le_of_lt h⟩
  · unfold StrIn.unget
    simp only [Nat.add_one_ne_zero, if_false, Nat.add_sub_cancel]
    exact ⟨rfl, hp', fun h => by dsimp only at h ⊢; simpa using Nat.le_of_lt h⟩

theorem got_digitLoop {d : Bytes} {p : Nat} : ∀ (f : Nat) (s : StrIn) (next : Int) (buf : Bytes), Got d p next s →
    Yields (fun x => Got d p x.1 x.2.2) (Lexer.digitLoop f s next buf)
  | 0, _, _, _, _ => .ub
  | f + 1, s, next, buf, h => by
    unfold Lexer.digitLoop
    split
    · dsimp only
      refine got_digitLoop f _ _ _ ?_
      have g := h.get
      exact ⟨g.data, g.pos, fun hn => g.got (by rintro e; rw [e] at hn; exact hn (by decide)), g.sane⟩
    · exact .ok h

theorem got_readDigits {d : Bytes} {p : Nat} {s : StrIn} {next : Int} (buf : Bytes) (h : Got d p next s) :
    Yields (fun x => Got d p x.1 x.2.2) (Lexer.readDigits s next buf) := by
  unfold Lexer.readDigits
  split
  · exact .throwStd
  · exact got_digitLoop _ _ _ _ h

theorem later_readNumber {s : StrIn} (h : Sane s) : Yields (fun x => Later s x.2) (Lexer.readNumber s) := by
  unfold Lexer.readNumber
  have g0 : Got s.data s.pos s.get.1 s.get.2 := got_get rfl (Nat.le_refl _) h
  generalize s.get = g at g0
  obtain ⟨n, s0⟩ := g
  dsimp only at g0 ⊢
  refine Yields.bind (P := fun (x : Int × Bytes × StrIn) => Got s.data s.pos x.1 x.2.2) ?_ ?_
  · split
    · split
      · exact .throwStd
      · exact .ok g0.get
    · exact .ok g0
  rintro ⟨n, b, s0⟩ g0
  dsimp only at g0 ⊢
  refine Yields.bind (P := fun (x : Int × Bytes × StrIn) => Got s.data s.pos x.1 x.2.2) ?_ ?_
  · split
    · exact .ok g0.get
    · exact got_readDigits _ g0
  clear g0
  rintro ⟨n, b, s0⟩ g0
  dsimp only at g0 ⊢
  refine Yields.bind (P := fun (x : Int × Bytes × StrIn) => Got s.data s.pos x.1 x.2.2) ?_ ?_
  · split
    · split
      · exact .throwStd
      · exact got_readDigits _ g0.get
    · exact .ok g0
  clear g0
  rintro ⟨n, b, s0⟩ g0
  dsimp only at g0 ⊢
  refine Yields.bind (P := fun (x : Int × Bytes × StrIn) => Got s.data s.pos x.1 x.2.2) ?_ ?_
  · split
    · split
      · exact .throwStd
      split
      · split
        · exact .throwStd
        · exact got_readDigits _ g0.get.get
      · exact got_readDigits _ g0.get
    · exact .ok g0
  clear g0
  rintro ⟨n, b, s0⟩ g0
  dsimp only at g0 ⊢
  split
  · next hn =>
    refine .ok ⟨g0.data, ?_, ?_⟩
    · have := g0.got hn
      unfold StrIn.unget
      dsimp only
      rw [if_neg (by omega)]
      left; omega
    · intro hh
      unfold StrIn.unget at hh ⊢
      dsimp only at hh ⊢
      simpa using Nat.le_of_lt hh
  · exact .ok ⟨g0.data, .inl g0.pos, g0.sane⟩

theorem later_scanQuote : ∀ (f : Nat) (ctl : Bool) (s : StrIn) (last : Byte) (acc : Bytes), Sane s → Yields (fun x => Later s x.2) (Lexer.scanQuote ctl f s last acc)
  | 0, _, _, _, _, _ => .ub
  | f + 1, ctl, s, last, acc, h => by
    unfold Lexer.scanQuote
    have hl := later_get h
    dsimp only
    split
    · split
      · exact .throwStd
      · exact (later_scanQuote f ctl _ _ _ hl.sane).mono fun y hy => hl.trans hy
    · split
      · exact .throwStd
      · exact .ok hl

/-! ### the lexer -/

theorem later_scanInt {l : Lexer} (k : IntKind) (h : Sane l.inp) : Yields (fun x => Later l.inp x.2.inp) (l.scanInt k) := by
  unfold Lexer.scanInt readIntValue
  refine Yields.bind (P := fun x => Later l.inp x.2) ?_ ?_
  · exact (later_checkZero h).bind fun s hs => (later_readInt k hs.sane).bind fun x hx => .ok (hs.trans hx)
  · rintro ⟨⟨ok, v⟩, s⟩ hx
    dsimp only at hx ⊢
    split
    · exact .throwStd
    · split
      · exact .ok hx
      · exact .ub

theorem later_scanFlt {l : Lexer} (f : FKind) (h : Sane l.inp) : Yields (fun x => Later l.inp x.2.inp) (l.scanFlt f) := by
  unfold Lexer.scanFlt readFltValue
  refine Yields.bind (P := fun x => Later l.inp x.2) ?_ ?_
  · exact (later_checkZero h).bind fun s hs => (later_readFlt f hs.sane).mono fun x hx => hs.trans hx
  · rintro ⟨⟨ok, v⟩, s⟩ hx
    dsimp only at hx ⊢
    split
    · exact .throwStd
    · split
      · exact .ok hx
      · exact .ub

theorem later_checkFixed {l : Lexer} (c : Bytes) : Yields (fun x => Later l.inp x.inp) (l.checkFixed c) := by
  unfold Lexer.checkFixed
  dsimp only
  refine (later_read _).bind ?_
  rintro ⟨got, g, s⟩ hx
  dsimp only at hx ⊢
  split
  · exact .ok hx
  · exact .throwStd

theorem later_getLastBool {l : Lexer} : Yields (fun x => Later l.inp x.2.inp) l.getLastBool := by
  unfold Lexer.getLastBool
  split
  · exact .ub
  · exact (later_checkFixed _).bind fun x hx => .ok hx
  · exact (later_checkFixed _).bind fun x hx => .ok hx
  · exact .throwStd

theorem later_getStringInto {l : Lexer} (h : Sane l.inp) : Yields (fun x => Later l.inp x.2.inp) l.getStringInto := by
  unfold Lexer.getStringInto
  have hl := later_get h
  dsimp only
  split
  · exact .throwStd
  refine (later_readTo 0x22).bind ?_
  rintro ⟨v, g, s1⟩ hx
  dsimp only at hx ⊢
  refine Yields.bind (P := fun x => Later l.inp x.2) ?_ ?_
  · split
    · exact (later_readMore _ _ _).mono fun y hy => (hl.trans hx).trans hy
    · exact .ok (hl.trans hx)
  · rintro ⟨v, s2⟩ hy
    dsimp only at hy ⊢
    exact Yields.bind (P := fun _ => True) (fun _ _ => trivial) fun _ _ => .ok hy

theorem later_ignoreRaw {l : Lexer} (h : Sane l.inp) : Yields (fun x => Later l.inp x.inp) l.ignoreRawValue := by
  unfold Lexer.ignoreRawValue
  split
  · exact .ub
  · exact .ok (later_ignore _)
  · exact .ok (later_ignore _)
  · exact .ok (later_ignore _)
  · exact (later_readNumber h).bind fun x hx => .ok hx
  · have hl := later_get h
    dsimp only
    exact (later_scanQuote _ _ _ _ _ hl.sane).bind fun x hx => .ok (hl.trans hx)
  · exact .ok (.refl h)

/-- What `yylex` makes of the input. -/
theorem later_yylex (l : Lexer) : Later l.inp l.yylex.2.inp := by
  unfold Lexer.yylex peekNextNonSpace
  have := later_readChar l.inp
  dsimp only
  split
  · exact this.1
  · exact this.2

theorem yylex_ok {l l' : Lexer} {x : Lexeme} (h : l.yylex = (x, l')) : l'.convertBackSlash = l.convertBackSlash ∧ l'.lastToken = some x ∧
    l'.lastNull = decide (x = .null_) := by
  unfold Lexer.yylex at h
  obtain ⟨rfl, rfl⟩ := Prod.mk.inj h
  exact ⟨rfl, rfl, rfl⟩

theorem spaces_get (t : Bytes) (c : Byte) (h : t[spaces t]? = some c) : c ∈ t := List.mem_of_getElem? h

/-- In front of junk no closing bracket is seen. -/
theorem yylex_junk {l : Lexer} (h : Junk l.inp) : l.yylex.1 ≠ .rbrace ∧ l.yylex.1 ≠ .rbracket := by
  have hc : ∀ c : Byte, c ≠ 0x5D ∧ c ≠ 0x7D → Lexer.classify c ≠ .rbrace ∧ Lexer.classify c ≠ .rbracket := by
    intro c hc
    unfold Lexer.classify
    repeat' split
    all_goals first | exact absurd ‹_› hc.2 | exact absurd ‹_› hc.1 | decide
  unfold Lexer.yylex peekNextNonSpace
  dsimp only
  have hr : (l.inp.readChar).1 ≠ 0x5D ∧ (l.inp.readChar).1 ≠ 0x7D := by
    unfold StrIn.readChar
    dsimp only
    split
    · split
      · next hh =>
        apply h.text
        unfold StrIn.rest
        rw [List.getD_eq_getElem?_getD, List.getElem?_eq_getElem hh, Option.getD_some]
        have : (l.inp.data.drop l.inp.pos)[spaces (l.inp.data.drop l.inp.pos)]? = some l.inp.data[l.inp.pos + spaces (l.inp.data.drop l.inp.pos)] := by
          rw [List.getElem?_drop, List.getElem?_eq_getElem hh]
        exact List.mem_of_getElem? this
      · decide
    · rw [if_neg (by omega)]; decide
  split <;> exact hc _ hr

end Thors
