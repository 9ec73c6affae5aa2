import Verif.Proofs.LeftKept
import Verif.Proofs.JsonJunk
import Verif.Model.JsonStream
import Verif.Model.BsonStream
import Verif.Model.Yaml
/-
The parsers never make up a key that is not in the text.
-/
namespace Thors
open Lean.Order StrIn Thors.Spec

theorem checkEscape_plain {v : Bytes} (h : (0x5C : Byte) ∉ v) : checkEscape v = false := by
  unfold checkEscape
  have e : v.reverse.takeWhile (fun c => decide (c = 0x5C)) = [] := by
    cases hr : v.reverse with
    | nil => rfl
    | cons c cs =>
      have hm : c ∈ v := by rw [← List.mem_reverse, hr]; simp
      rw [List.takeWhile_cons_of_neg]
      simp only [decide_eq_true_eq]
      intro e
      exact h (e ▸ hm)
  rw [e]
  rfl

theorem unesc_plain : ∀ {v : Bytes}, (0x5C : Byte) ∉ v → Yields (fun x => x = v) (unesc v)
  | [], _ => by rw [unesc]; exact .ok rfl
  | c :: cs, h => by
    have hc : c ≠ 0x5C := fun e => h (by simp [e])
    have ih := unesc_plain (v := cs) fun hm => h (List.mem_cons_of_mem _ hm)
    rw [unesc]
    refine Yields.bind (P := fun x => x = ([c], 0)) ?_ ?_
    · unfold stepL
      split
      · exact .throwStd
      · exact .ok rfl
    · rintro _ rfl
      exact ih.bind fun r e => .ok (by rw [e]; rfl)

theorem isInfix_take_drop (t : Bytes) (a b : Nat) : (t.drop a).take b <:+: t :=
  (List.take_prefix b _).isInfix.trans (List.drop_suffix a t).isInfix

section
variable {t k : Bytes}

theorem toChar_toNat (c : Byte) : toChar (c.toNat : Int) = c := by
  refine forall_byte (P := fun c => toChar (c.toNat : Int) = c) ?_ c
  decide +kernel

/-- A character and what follows it. -/
theorem isInfix_cons_take (t : Bytes) (c : Byte) (a b : Nat) (h : a < t.length) (hc : t.getD a 0 = c) : c :: (t.drop (a + 1)).take b <:+: t := by
  have e : c :: (t.drop (a + 1)).take b = (t.drop a).take (b + 1) := by
    rw [List.drop_eq_getElem_cons h, List.take_succ_cons]
    have : t[a] = c := by rw [← hc, List.getD_eq_getElem?_getD, List.getElem?_eq_getElem h]; rfl
    rw [this]
  rw [e]
  exact isInfix_take_drop _ _ _

/-- A string that is read from a text without backslashes is in it, behind a quote. -/
theorem getString_infix (ht : (0x5C : Byte) ∉ t) {l : Lexer} (hd : l.inp.data = t) : Yields (fun x => 0x22 :: x.1 <:+: t) l.getStringInto := by
  unfold Lexer.getStringInto
  dsimp only
  split
  · exact .throwStd
  rename_i hq
  have hq : toChar l.inp.get.1 = 0x22 := by simpa using hq
  have h1 : Yields (fun x => 0x22 :: x.1 <:+: t) (l.inp.get.2.readTo 0x22) := by
    unfold StrIn.readTo
    split
    · exact .throwStd
    · refine .ok ?_
      unfold StrIn.get at hq ⊢
      split at hq
      · rename_i hg
        rw [if_pos hg]
        rw [toChar_sext] at hq
        dsimp only
        rw [hd] at hq hg ⊢
        exact isInfix_cons_take _ _ _ _ hg.2 hq
      · exact absurd (show toChar EOFv = 0x22 from hq) (by decide)
  refine h1.bind ?_
  rintro ⟨v, g, s1⟩ hx
  dsimp only at hx ⊢
  have hv : (0x5C : Byte) ∉ v := fun h => ht (hx.subset (List.mem_cons_of_mem _ h))
  rw [checkEscape_plain hv]
  rw [if_neg (by simp)]
  refine Yields.bind (P := fun x => x = (v, s1)) (.ok rfl) ?_
  rintro _ rfl
  dsimp only
  refine Yields.bind (P := fun x => x = v) ?_ fun x e => .ok (by rw [e]; exact hx)
  split
  · rw [unescapeInPlace_eq]
    exact unesc_plain hv
  · exact .ok rfl

/-- The input still is the text. -/
def StillOn (t : Bytes) (s : JsonP) : Prop := s.lex.inp.data = t ∧ Sane s.lex.inp

theorem StillOn.later {s s' : JsonP} (h : StillOn t s) (hl : Later s.lex.inp s'.lex.inp) : StillOn t s' := ⟨hl.data.trans h.1, hl.sane⟩

theorem lexStep_stillOn : ∀ (n : Nat) (s : JsonP), StillOn t s → Yields (fun x => StillOn t x.2) (JsonP.lexStep n s)
  | 0, _, _ => .ub
  | n + 1, s, h => by
    unfold JsonP.lexStep
    have hl := later_yylex s.lex
    dsimp only
    refine Yields.bind (P := fun _ => True) (fun _ _ => trivial) ?_
    rintro ⟨tok, ctl⟩ -
    cases tok with
    | some tok => exact .ok (h.later hl)
    | none => exact lexStep_stillOn n _ (h.later hl)

theorem json_avoids (ht : (0x5C : Byte) ∉ t) (hk : ¬ 0x22 :: k <:+: t) : Avoids JsonP.inOps.ops (StillOn t) k where
  next s h := by
    change Yields _ (JsonP.getNextToken s)
    unfold JsonP.getNextToken
    split
    · exact .ok h
    split
    · exact .ok h
    split
    · exact .ok h
    · exact lexStep_stillOn _ _ h
  getKey s h := by
    change Yields _ (JsonP.getKey s)
    unfold JsonP.getKey Lexer.getString
    refine Yields.bind (P := fun x : Bytes × Lexer => 0x22 :: x.1 <:+: t ∧ Later s.lex.inp x.2.inp) ?_ ?_
    · refine Yields.bind (P := fun x : Bytes × Lexer => 0x22 :: x.1 <:+: t ∧ Later s.lex.inp x.2.inp) ?_ fun x hx => .ok hx
      intro x hx
      exact ⟨getString_infix ht h.1 x hx, later_getStringInto h.2 x hx⟩
    · rintro ⟨v, l⟩ ⟨h1, h2⟩
      exact .ok ⟨fun e => hk (e ▸ h1), h.later h2⟩
  getInt i s h := (later_scanInt i h.2).bind fun x hx => .ok (h.later hx)
  getFlt f s h := (later_scanFlt f h.2).bind fun x hx => .ok (h.later hx)
  getBool s h := later_getLastBool.bind fun x hx => .ok (h.later hx)
  getStr s h := (later_getStringInto h.2).bind fun x hx => .ok (h.later hx)
  ignoreData s h := (later_ignoreRaw h.2).bind fun x hx => .ok (h.later hx)

/-! JSON from a stream -/

/-- The stream still is on the text. -/
def OnText (t : Bytes) (i : IStr) : Prop := i.data = t

theorem on_get {i : IStr} (h : OnText t i) : OnText t i.get.2 := by
  unfold IStr.get
  split
  · exact h
  · split <;> exact h
theorem on_peek {i : IStr} (h : OnText t i) : OnText t i.peek.2 := by
  unfold IStr.peek
  split
  · exact h
  · split <;> exact h
theorem on_unget {i : IStr} (h : OnText t i) : OnText t i.unget := by
  unfold IStr.unget
  split
  · exact h
  · split <;> exact h
theorem on_ignore {i : IStr} (n : Nat) (h : OnText t i) : OnText t (i.ignore n) := by
  unfold IStr.ignore
  split
  · exact h
  · split <;> exact h
theorem on_read {i : IStr} (n : Nat) (h : OnText t i) : OnText t (i.read n).2.2 := by
  unfold IStr.read
  split
  · exact h
  · dsimp only; split <;> exact h
theorem on_getline {i : IStr} (d : Byte) (h : OnText t i) : OnText t (i.getline d).2.2 := by
  unfold IStr.getline
  split
  · exact h
  dsimp only
  split
  · exact h
  split <;> exact h
theorem on_readChar {i : IStr} (h : OnText t i) : OnText t i.readChar.2 := by
  unfold IStr.readChar
  split
  · exact h
  · dsimp only; split <;> exact h
theorem on_tellg {i : IStr} (h : OnText t i) : OnText t i.tellg.2 := by
  unfold IStr.tellg
  split
  · exact h
  · split <;> exact h

theorem getline_infix {i : IStr} (d : Byte) (h : OnText t i) {v : Bytes} (hv : (i.getline d).1 = some v) : v <:+: t := by
  unfold IStr.getline at hv
  unfold OnText at h
  split at hv
  · cases hv
  dsimp only at hv
  split at hv
  · cases hv; rw [h]; exact isInfix_take_drop _ _ _
  split at hv
  · cases hv; exact List.nil_infix
  · cases hv; rw [h]; exact isInfix_take_drop _ _ _

theorem on_readMore : ∀ (n : Nat) (i : IStr) (tmp v : Bytes), OnText t i → Yields (fun x => OnText t x.2) (LexerS.readMore n i tmp v)
  | 0, _, _, _, _ => .ub
  | n + 1, i, tmp, v, h => by
    unfold LexerS.readMore
    dsimp only
    split
    · exact on_readMore n _ _ _ (on_getline _ h)
    · exact .ok (on_getline _ h)

theorem on_scanQuote (ctl : Bool) : ∀ (n : Nat) (i : IStr) (last : Byte) (acc : Bytes), OnText t i → Yields (fun x => OnText t x.2) (LexerS.scanQuote ctl n i last acc)
  | 0, _, _, _, _ => .ub
  | n + 1, i, last, acc, h => by
    unfold LexerS.scanQuote
    dsimp only
    split
    · split
      · exact .throwStd
      · exact on_scanQuote ctl n _ _ _ (on_get h)
    split
    · exact .throwStd
    · exact .ok (on_get h)

theorem on_digitLoop : ∀ (n : Nat) (i : IStr) (next : Int) (buf : Bytes), OnText t i → Yields (fun x => OnText t x.2.2) (LexerS.digitLoop n i next buf)
  | 0, _, _, _, _ => .ub
  | n + 1, i, next, buf, h => by
    unfold LexerS.digitLoop
    dsimp only
    split
    · exact on_digitLoop n _ _ _ (on_get h)
    · exact .ok h

theorem on_readDigits (i : IStr) (next : Int) (buf : Bytes) (h : OnText t i) : Yields (fun x => OnText t x.2.2) (LexerS.readDigits i next buf) := by
  unfold LexerS.readDigits
  split
  · exact .throwStd
  · exact on_digitLoop _ _ _ _ h

theorem on_readNumber {i : IStr} (h : OnText t i) : Yields (fun x => OnText t x.2) (LexerS.readNumber i) := by
  unfold LexerS.readNumber
  have h := on_get h
  dsimp only
  refine Yields.bind (P := fun x : Int × Bytes × IStr => OnText t x.2.2) ?_ ?_
  · split
    · split
      · exact .throwStd
      · exact .ok (on_get h)
    · exact .ok h
  rintro ⟨n, b, i⟩ h
  refine Yields.bind (P := fun x : Int × Bytes × IStr => OnText t x.2.2) ?_ ?_
  · split
    · exact .ok (on_get h)
    · exact on_readDigits _ _ _ h
  rintro ⟨n, b, i⟩ h
  refine Yields.bind (P := fun x : Int × Bytes × IStr => OnText t x.2.2) ?_ ?_
  · split
    · split
      · exact .throwStd
      · exact on_readDigits _ _ _ (on_get h)
    · exact .ok h
  rintro ⟨n, b, i⟩ h
  refine Yields.bind (P := fun x : Int × Bytes × IStr => OnText t x.2.2) ?_ ?_
  · split
    · split
      · exact .throwStd
      · split
        · split
          · exact .throwStd
          · exact on_readDigits _ _ _ (on_get (on_get h))
        · exact on_readDigits _ _ _ (on_get h)
    · exact .ok h
  rintro ⟨n, b, i⟩ h
  dsimp only
  split
  · exact .ok (on_unget h)
  · exact .ok h

theorem on_checkZero {i : IStr} (h : OnText t i) : Yields (OnText t) i.checkZero := by
  unfold IStr.checkZero
  dsimp only
  split
  · split
    · exact .throwStd
    · exact .ok (on_unget (on_peek (on_get (on_peek h))))
  · exact .ok (on_peek h)

theorem on_moved {i : IStr} (n : Nat) (h : OnText t i) : OnText t { i with pos := n } := h

theorem on_readUnsigned {i : IStr} (b : Nat) (h : OnText t i) : OnText t (i.readUnsigned b).2 := on_tellg (on_moved _ (on_tellg h))

theorem on_readFlt {i : IStr} (f : FKind) (h : OnText t i) : OnText t (i.readFlt f).2 := on_tellg (on_moved _ (on_tellg h))

theorem on_readInt {i : IStr} (k : IntKind) (h : OnText t i) : OnText t (i.readInt k).2 := by
  unfold IStr.readInt
  split
  · dsimp only
    refine on_readUnsigned _ ?_
    split
    · exact on_get (on_peek h)
    · exact on_peek h
  · exact on_readUnsigned _ h

theorem on_readIntValue {i : IStr} (k : IntKind) (h : OnText t i) : Yields (fun x => OnText t x.2) (i.readIntValue k) := by
  unfold IStr.readIntValue
  exact (on_checkZero h).bind fun i h => .ok (on_peek (on_readInt k h))

theorem on_readFltValue {i : IStr} (f : FKind) (h : OnText t i) : Yields (fun x => OnText t x.2) (i.readFltValue f) := by
  unfold IStr.readFltValue
  exact (on_checkZero h).bind fun i h => .ok (on_readFlt f h)

theorem on_checkFixed {l : LexerS} (c : Bytes) (h : OnText t l.inp) : Yields (fun x => OnText t x.inp) (l.checkFixed c) := by
  unfold LexerS.checkFixed
  dsimp only
  split
  · exact .ok (on_read _ h)
  · exact .throwStd

theorem on_getStringInto {l : LexerS} (h : OnText t l.inp) : Yields (fun x => OnText t x.2.inp) l.getStringInto := by
  unfold LexerS.getStringInto
  have h := on_get h
  dsimp only
  split
  · exact .throwStd
  refine Yields.bind (P := fun x : Bytes × IStr => OnText t x.2) ?_ ?_
  · split
    · exact on_readMore _ _ _ _ (on_getline _ h)
    · exact .ok (on_getline _ h)
  · rintro ⟨v, i⟩ h
    exact Yields.bind (P := fun _ => True) (fun _ _ => trivial) fun _ _ => .ok h

theorem getStringS_infix (ht : (0x5C : Byte) ∉ t) {l : LexerS} (h : OnText t l.inp) : Yields (fun x => 0x22 :: x.1 <:+: t) l.getStringInto := by
  unfold LexerS.getStringInto
  dsimp only
  split
  · exact .throwStd
  rename_i hq
  have hq : toChar l.inp.get.1 = 0x22 := by simpa using hq
  have hx : 0x22 :: (l.inp.get.2.getline 0x22).1.getD [] <:+: t := by
    unfold OnText at h
    unfold IStr.get at hq ⊢
    split at hq
    · exact absurd (show toChar EOFv = 0x22 from hq) (by decide)
    rename_i hg
    split at hq
    · rename_i hl
      rw [if_neg hg, if_pos hl]
      rw [toChar_toNat] at hq
      rw [h] at hq hl
      have e : ∀ n, 0x22 :: ((l.inp.data.drop (l.inp.pos + 1)).take n) <:+: t := fun n => by
        rw [h]
        exact isInfix_cons_take _ _ _ _ hl hq
      have e0 : [0x22] <:+: t := by simpa using e 0
      unfold IStr.getline
      split
      · exact e0
      dsimp only
      split
      · exact e _
      split
      · exact e0
      · exact e _
    · exact absurd (show toChar EOFv = 0x22 from hq) (by decide)
  have hv : (0x5C : Byte) ∉ (l.inp.get.2.getline 0x22).1.getD [] := fun h => ht (hx.subset (List.mem_cons_of_mem _ h))
  rw [checkEscape_plain hv]
  rw [if_neg (by simp)]
  refine Yields.bind (P := fun x => x.1 = (l.inp.get.2.getline 0x22).1.getD []) (.ok rfl) ?_
  rintro ⟨v, i⟩ e
  dsimp only at e ⊢
  rw [← e] at hv hx
  refine Yields.bind (P := fun x => x = v) ?_ fun x e => .ok (by rw [e]; exact hx)
  split
  · rw [unescapeInPlace_eq]
    exact unesc_plain hv
  · exact .ok rfl

theorem on_yylex {l : LexerS} (h : OnText t l.inp) : OnText t l.yylex.2.inp := by
  unfold LexerS.yylex LexerS.peekNextNonSpace
  have := on_readChar h
  dsimp only
  split <;> rename_i e <;> rw [e] at this
  · split
    · exact this
    · exact on_unget this
  · exact this

theorem on_lexStep : ∀ (n : Nat) (s : JsonS), OnText t s.lex.inp → Yields (fun x => OnText t x.2.lex.inp) (JsonS.lexStep n s)
  | 0, _, _ => .ub
  | n + 1, s, h => by
    unfold JsonS.lexStep
    dsimp only
    refine Yields.bind (P := fun _ => True) (fun _ _ => trivial) ?_
    rintro ⟨tok, ctl⟩ -
    cases tok with
    | some tok => exact .ok (on_yylex h)
    | none => exact on_lexStep n _ (on_yylex h)

theorem stream_avoids (ht : (0x5C : Byte) ∉ t) (hk : ¬ 0x22 :: k <:+: t) : Avoids JsonS.ops (fun s => OnText t s.lex.inp) k where
  next s h := by
    change Yields _ (JsonS.getNextToken s)
    unfold JsonS.getNextToken
    split
    · exact .ok h
    split
    · exact .ok h
    split
    · exact .ok h
    · exact on_lexStep _ _ h
  getKey s h := by
    change Yields _ (do let (v, l) ← s.lex.getString; return (v, { s with lex := l }) : Res (Bytes × JsonS))
    unfold LexerS.getString
    refine Yields.bind (P := fun x : Bytes × LexerS => 0x22 :: x.1 <:+: t ∧ OnText t x.2.inp) ?_ ?_
    · refine Yields.bind (P := fun x : Bytes × LexerS => 0x22 :: x.1 <:+: t ∧ OnText t x.2.inp) ?_ fun x hx => .ok hx
      intro x hx
      exact ⟨getStringS_infix ht h x hx, on_getStringInto h x hx⟩
    · rintro ⟨v, l⟩ ⟨h1, h2⟩
      exact .ok ⟨fun e => hk (e ▸ h1), h2⟩
  getInt i s h := by
    refine Yields.bind (P := fun x : Int × LexerS => OnText t x.2.inp) ?_ fun x hx => .ok hx
    unfold LexerS.scanInt
    refine (on_readIntValue i h).bind ?_
    rintro ⟨⟨ok, v⟩, i⟩ h
    dsimp only
    split
    · exact .throwStd
    · exact .ok h
  getFlt f s h := by
    refine Yields.bind (P := fun x : Flt × LexerS => OnText t x.2.inp) ?_ fun x hx => .ok hx
    unfold LexerS.scanFlt
    refine (on_readFltValue f h).bind ?_
    rintro ⟨⟨ok, v⟩, i⟩ h
    dsimp only
    split
    · exact .throwStd
    · exact .ok h
  getBool s h := by
    refine Yields.bind (P := fun x : Bool × LexerS => OnText t x.2.inp) ?_ fun x hx => .ok hx
    unfold LexerS.getLastBool
    split
    · exact .ub
    · exact (on_checkFixed _ h).bind fun x hx => .ok hx
    · exact (on_checkFixed _ h).bind fun x hx => .ok hx
    · exact .throwStd
  getStr s h := (on_getStringInto h).bind fun x hx => .ok hx
  ignoreData s h := by
    refine Yields.bind (P := fun x : LexerS => OnText t x.inp) ?_ fun x hx => .ok hx
    unfold LexerS.ignoreRawValue
    split
    · exact .ub
    · exact .ok (on_ignore _ h)
    · exact .ok (on_ignore _ h)
    · exact .ok (on_ignore _ h)
    · exact (on_readNumber h).bind fun x hx => .ok hx
    · dsimp only
      exact (on_scanQuote _ _ _ _ _ (on_get h)).bind fun x hx => .ok hx
    · exact .ok h

/-! YAML -/

/-- None of the events still to come is the name, nor is the current one. -/
def NoName (k : Bytes) (p : YamlP) : Prop := YEv.scalar k ∉ p.events ∧ p.cur ≠ .scalar k

theorem noName_parse {p : YamlP} (h : NoName k p) : Yields (fun x => NoName k x.2) p.parseEvent := by
  unfold YamlP.parseEvent
  split
  · rename_i e
    exact .ok ⟨h.1, by simp⟩
  · rename_i e es he
    have h1 : YEv.scalar k ∉ es := fun hm => h.1 (by rw [he]; exact List.mem_cons_of_mem _ hm)
    have h2 : e ≠ .scalar k := fun e' => h.1 (by rw [he, e']; simp)
    dsimp only
    split <;> first
      | exact .throwStd
      | exact .ub
      | exact .ok ⟨h1, h2⟩
      | (split <;> first | exact .throwStd | exact .ok ⟨h1, h2⟩)

theorem yaml_avoids (hne : k ≠ []) : Avoids YamlP.ops (NoName k) k where
  next s h := by
    change Yields _ s.getNextToken
    unfold YamlP.getNextToken
    split
    · split
      · rename_i es he
        have h1 : YEv.scalar k ∉ es := fun hm => h.1 (by rw [he]; exact List.mem_cons_of_mem _ hm)
        dsimp only
        split
        · exact .ok ⟨h1, by simp⟩
        · exact noName_parse ⟨h1, by simp⟩
      · rename_i e es _ he
        have h1 : YEv.scalar k ∉ es := fun hm => h.1 (by rw [he]; exact List.mem_cons_of_mem _ hm)
        have h2 : e ≠ .scalar k := fun e' => h.1 (by rw [he, e']; simp)
        exact .ok ⟨h1, h2⟩
      · exact .ok ⟨h.1, by simp⟩
    split
    · exact .ok h
    · exact noName_parse h
  getKey s h := by
    change Yields _ s.getString
    unfold YamlP.getString
    split
    · rename_i t e
      refine .ok ⟨fun e' => h.2 ?_, h⟩
      rw [e]
      dsimp only at e'
      rw [e']
    · exact .ok ⟨fun e => hne e.symm, h⟩
    · exact .ok ⟨fun e => hne e.symm, h⟩
    · exact .ub
  getInt i s h := by
    change Yields _ (YamlP.getInt i s)
    unfold YamlP.getInt YamlP.scalarText
    refine Yields.bind (P := fun x : Bytes × YamlP => NoName k x.2) ?_ ?_
    · split
      · exact .ok h
      · exact .ub
    · rintro ⟨v, q⟩ h
      exact Yields.bind (P := fun _ => True) (fun _ _ => trivial) fun _ _ => .ok h
  getFlt f s h := by
    change Yields _ (YamlP.getFlt f s)
    unfold YamlP.getFlt YamlP.scalarText
    refine Yields.bind (P := fun x : Bytes × YamlP => NoName k x.2) ?_ ?_
    · split
      · exact .ok h
      · exact .ub
    · rintro ⟨v, q⟩ h
      exact Yields.bind (P := fun _ => True) (fun _ _ => trivial) fun _ _ => .ok h
  getBool s h := by
    change Yields _ (YamlP.getBool s)
    unfold YamlP.getBool
    refine Yields.bind (P := fun x => NoName k x.2) ?_ ?_
    · unfold YamlP.getString
      split <;> first | exact .ok h | exact .ub
    · rintro ⟨t, p⟩ h
      dsimp only
      split
      · exact .ok h
      split
      · exact .ok h
      · exact .throwStd
  getStr s h := by
    change Yields _ s.getString
    unfold YamlP.getString
    split <;> first | exact .ok h | exact .ub
  ignoreData s h := .ok h

/-! BSON -/

/-- The input still is the text, and the key is a part of it. -/
def OnDoc (t : Bytes) (s : BsonP) : Prop := s.inp.data = t ∧ s.key <:+: t

theorem onDoc_read {s : StrIn} (n : Nat) (h : s.data = t) : Yields (fun x => x.2.2.data = t) (s.read n) := by
  unfold StrIn.read
  split
  · exact .ub
  · exact .ok h

theorem onDoc_readLE {s : StrIn} (n : Nat) (h : s.data = t) : Yields (fun x => x.2.data = t) (readLE n s) := by
  unfold readLE
  refine (onDoc_read n h).bind ?_
  rintro ⟨got, g, s⟩ h
  dsimp only
  split
  · exact .ub
  · exact .ok h

theorem onDoc_use {s : BsonP} (n : Int) (h : OnDoc t s) : Yields (OnDoc t) (s.use n) := by
  unfold BsonP.use
  split
  · exact .ub
  · exact .ok h

theorem onDoc_settle {s : BsonP} (h : OnDoc t s) : Yields (OnDoc t) s.settle := by
  unfold BsonP.settle
  split
  · refine Yields.bind (P := fun _ => True) (fun _ _ => trivial) ?_
    intro x _
    cases x <;> exact .ok h
  · exact .ok h

theorem onDoc_readEnd {s : BsonP} (h : OnDoc t s) : Yields (OnDoc t) s.readEnd := by
  unfold BsonP.readEnd
  refine (onDoc_read 1 h.1).bind ?_
  rintro ⟨got, g, i⟩ hi
  dsimp only
  split
  · exact .throwStd
  refine (onDoc_use 1 (s := { s with inp := i }) ⟨hi, h.2⟩).bind fun s h => ?_
  split
  · exact .throwStd
  · exact .ok h

theorem onDoc_readKey {s : BsonP} (h : OnDoc t s) : Yields (OnDoc t) s.readKey := by
  unfold BsonP.readKey
  refine (onDoc_read 1 h.1).bind ?_
  rintro ⟨got, g, i⟩ hi
  dsimp only at hi ⊢
  split
  · exact .throwStd
  refine Yields.bind (P := fun x : Bytes × Bool × StrIn => x.1 <:+: t ∧ x.2.2.data = t) ?_ ?_
  · unfold StrIn.readTo
    split
    · exact .throwStd
    · exact .ok ⟨by rw [hi]; exact isInfix_take_drop _ _ _, hi⟩
  · rintro ⟨key, g, i⟩ ⟨h1, h2⟩
    dsimp only at h1 h2 ⊢
    split
    · exact .throwStd
    · exact onDoc_use _ ⟨h2, h1⟩

theorem onDoc_openLevel {s : BsonP} (h : OnDoc t s) : Yields (OnDoc t) s.openLevel := by
  unfold BsonP.openLevel
  exact (onDoc_readLE 4 h.1).bind fun x hx => .ok ⟨hx, h.2⟩

theorem onDoc_handOut {s : BsonP} (h : OnDoc t s) : Yields (fun x => OnDoc t x.2) s.handOut := by
  unfold BsonP.handOut
  split
  · split
    · exact .ub
    · exact .ok h
    · exact .ok h
    · exact (onDoc_openLevel (s := { s with next := .Key, conts := .Value :: s.conts }) h).bind fun s h => .ok h
  · dsimp only
    split
    · exact (onDoc_readEnd h).bind fun s h => .ok h
    · exact Yields.bind (P := OnDoc t) (.ok h) fun s h => .ok h
  · dsimp only
    refine (onDoc_openLevel h).bind fun s h => ?_
    split
    · split <;> exact .ok h
    · split
      · exact .ub
      · exact .ok h
    · exact .ub
  · dsimp only
    refine (onDoc_openLevel h).bind fun s h => ?_
    split
    · split <;> exact .ok h
    · split
      · exact .ub
      · exact .ok h
    · exact .ub
  · dsimp only
    refine (onDoc_readEnd h).bind fun s h => ?_
    split
    · exact .ok h
    · refine Yields.bind (P := fun _ => True) (fun _ _ => trivial) ?_
      intro x _
      cases x <;> exact .ok h
    · exact .ub
  · dsimp only
    refine (onDoc_readEnd h).bind fun s h => ?_
    split
    · exact .ok h
    · refine Yields.bind (P := fun _ => True) (fun _ _ => trivial) ?_
      intro x _
      cases x <;> exact .ok h
    · exact .ub
  · exact .ok h
  · exact .throwStd

theorem onDoc_ignoreBytes {s : BsonP} (n : Int) (h : OnDoc t s) : Yields (OnDoc t) (s.ignoreBytes n) := onDoc_use _ h

theorem onDoc_ignoreSized {s : BsonP} (n : Int) (h : OnDoc t s) : Yields (OnDoc t) (s.ignoreSized n) := by
  unfold BsonP.ignoreSized
  refine (onDoc_readLE 4 h.1).bind ?_
  rintro ⟨v, i⟩ hi
  dsimp only
  split
  · exact .ub
  · exact onDoc_use _ ⟨hi, h.2⟩

theorem onDoc_readInt {s : BsonP} (n : Nat) (h : OnDoc t s) : Yields (fun x => OnDoc t x.2) (s.readInt n) := by
  unfold BsonP.readInt
  exact (onDoc_use n h).bind fun s h => (onDoc_readLE n h.1).bind fun x hx => .ok ⟨hx, h.2⟩

theorem onDoc_next {s : BsonP} (h : OnDoc t s) : Yields (fun x => OnDoc t x.2) s.getNextToken := by
  unfold BsonP.getNextToken
  refine (onDoc_settle h).bind fun s h => ?_
  split
  · refine (onDoc_readKey h).bind fun s h => ?_
    split
    · exact .ub
    · rename_i c _ _
      have hk : ∀ s' : BsonP, OnDoc t s' → Yields (fun x => OnDoc t x.2) (if c = .Map then .ok (.Key, s') else s'.handOut) := by
        intro s' h
        split
        · exact .ok h
        · exact onDoc_handOut h
      refine hk _ ?_
      split
      · exact h
      split
      · exact h
      · exact h
  · exact onDoc_handOut h

theorem either_yields {α : Type} {P : α → Prop} {c : Prop} [Decidable c] {a b : Res α} (ha : Yields P a) (hb : Yields P b) : Yields P (if c then a else b) := by
  split
  · exact ha
  · exact hb

theorem onDoc_ignoreData {s : BsonP} (h : OnDoc t s) : Yields (OnDoc t) s.ignoreDataValue := by
  unfold BsonP.ignoreDataValue
  refine either_yields (.ok h) ?_
  iterate 8 refine either_yields (onDoc_ignoreBytes _ h) ?_
  refine either_yields (.ok h) ?_
  exact either_yields (onDoc_ignoreSized _ h) (either_yields (onDoc_ignoreSized _ h) .throwStd)

theorem bson_avoids (hk : ¬ k <:+: t) : Avoids BsonP.ops (OnDoc t) k where
  next s h := onDoc_next h
  getKey s h := .ok ⟨fun e => hk (e ▸ h.2), h⟩
  getInt i s h := by
    change Yields _ (BsonP.getInt i s)
    unfold BsonP.getInt
    split
    · exact (onDoc_readInt _ h).bind fun x hx => .ok hx
    split
    · exact (onDoc_readInt _ h).bind fun x hx => .ok hx
    · exact .throwStd
  getFlt f s h := by
    change Yields _ (BsonP.getFlt f s)
    unfold BsonP.getFlt
    split
    · exact (onDoc_readInt _ h).bind fun x hx => .ok hx
    split
    · exact (onDoc_readInt _ h).bind fun x hx => .ok hx
    split
    · refine Yields.bind (P := fun x : Flt × BsonP => OnDoc t x.2) ?_ fun x hx => .ok hx
      unfold BsonP.readDouble
      refine (onDoc_read 8 h.1).bind ?_
      rintro ⟨got, g, i⟩ hi
      dsimp only
      split
      · exact .throwStd
      refine (onDoc_use 8 (s := { s with inp := i }) ⟨hi, h.2⟩).bind fun s h => ?_
      split
      · exact .ub
      · exact .ok h
    · exact .throwStd
  getBool s h := by
    change Yields _ (BsonP.getBool s)
    unfold BsonP.getBool
    split
    · exact .throwStd
    unfold BsonP.readBool
    refine (onDoc_read 1 h.1).bind ?_
    rintro ⟨got, g, i⟩ hi
    dsimp only
    split
    · exact .throwStd
    refine (onDoc_use 1 (s := { s with inp := i }) ⟨hi, h.2⟩).bind fun s h => ?_
    split
    · exact .ok h
    · exact .ok h
    · exact .ub
  getStr s h := by
    change Yields _ (BsonP.getStr s)
    unfold BsonP.getStr
    split
    · exact .throwStd
    unfold BsonP.readString
    refine (onDoc_readLE 4 h.1).bind ?_
    rintro ⟨n, i⟩ hi
    dsimp only
    refine (onDoc_use 4 (s := { s with inp := i }) ⟨hi, h.2⟩).bind fun s h => ?_
    split
    · split
      · exact .throwStd
      · exact .ub
    refine (onDoc_read _ h.1).bind ?_
    rintro ⟨got, g, i⟩ hi
    dsimp only
    split
    · exact .throwStd
    refine (onDoc_use n (s := { s with inp := i }) ⟨hi, h.2⟩).bind fun s h => ?_
    split
    · exact .throwStd
    · exact .ok h
  ignoreData s h := onDoc_ignoreData h

/-! BSON from a stream -/

/-- The input still is the text, and the key is a part of it. -/
def OnDocS (t : Bytes) (s : BsonS) : Prop := OnText t s.inp ∧ s.key <:+: t

theorem on_ignoreInt {i : IStr} (n : Int) (h : OnText t i) : OnText t (i.ignoreInt n) := by
  unfold IStr.ignoreInt
  split
  · split <;> exact h
  · exact on_ignore _ h

theorem onText_readLE {i : IStr} (n : Nat) (h : OnText t i) : Yields (fun x => OnText t x.2) (i.readLE n) := by
  unfold IStr.readLE
  dsimp only
  split
  · exact .ub
  · exact .ok (on_read _ h)

theorem onDocS_use {s : BsonS} (n : Int) (h : OnDocS t s) : Yields (OnDocS t) (s.use n) := by
  unfold BsonS.use
  split
  · exact .ub
  · exact .ok h

theorem onDocS_settle {s : BsonS} (h : OnDocS t s) : Yields (OnDocS t) s.settle := by
  unfold BsonS.settle
  split
  · refine Yields.bind (P := fun _ => True) (fun _ _ => trivial) ?_
    intro x _
    cases x <;> exact .ok h
  · exact .ok h

theorem onDocS_readEnd {s : BsonS} (h : OnDocS t s) : Yields (OnDocS t) s.readEnd := by
  unfold BsonS.readEnd
  have hi := on_read 1 h.1
  dsimp only
  split
  · exact .throwStd
  refine (onDocS_use 1 (s := { s with inp := _ }) ⟨hi, h.2⟩).bind fun s h => ?_
  split
  · exact .throwStd
  · exact .ok h

theorem onDocS_readKey {s : BsonS} (h : OnDocS t s) : Yields (OnDocS t) s.readKey := by
  unfold BsonS.readKey
  have hi := on_read 1 h.1
  dsimp only at hi ⊢
  split
  · exact .throwStd
  split
  · exact .throwStd
  · refine onDocS_use _ ⟨on_getline _ hi, ?_⟩
    dsimp only
    cases e : ((s.inp.read 1).2.2.getline 0x00).1 with
    | none => exact h.2
    | some v => exact getline_infix _ hi e

theorem onDocS_openLevel {s : BsonS} (h : OnDocS t s) : Yields (OnDocS t) s.openLevel := by
  unfold BsonS.openLevel
  exact (onText_readLE 4 h.1).bind fun x hx => .ok ⟨hx, h.2⟩

theorem onDocS_handOut {s : BsonS} (h : OnDocS t s) : Yields (fun x => OnDocS t x.2) s.handOut := by
  unfold BsonS.handOut
  split
  · split
    · exact .ub
    · exact .ok h
    · exact .ok h
    · exact (onDocS_openLevel (s := { s with next := .Key, conts := .Value :: s.conts }) h).bind fun s h => .ok h
  · dsimp only
    split
    · exact (onDocS_readEnd h).bind fun s h => .ok h
    · exact Yields.bind (P := OnDocS t) (.ok h) fun s h => .ok h
  · dsimp only
    refine (onDocS_openLevel h).bind fun s h => ?_
    split
    · split <;> exact .ok h
    · split
      · exact .ub
      · exact .ok h
    · exact .ub
  · dsimp only
    refine (onDocS_openLevel h).bind fun s h => ?_
    split
    · split <;> exact .ok h
    · split
      · exact .ub
      · exact .ok h
    · exact .ub
  · dsimp only
    refine (onDocS_readEnd h).bind fun s h => ?_
    split
    · exact .ok h
    · refine Yields.bind (P := fun _ => True) (fun _ _ => trivial) ?_
      intro x _
      cases x <;> exact .ok h
    · exact .ub
  · dsimp only
    refine (onDocS_readEnd h).bind fun s h => ?_
    split
    · exact .ok h
    · refine Yields.bind (P := fun _ => True) (fun _ _ => trivial) ?_
      intro x _
      cases x <;> exact .ok h
    · exact .ub
  · exact .ok h
  · exact .throwStd

theorem onDocS_ignoreBytes {s : BsonS} (n : Int) (h : OnDocS t s) : Yields (OnDocS t) (s.ignoreBytes n) := onDocS_use _ ⟨on_ignoreInt n h.1, h.2⟩

theorem onDocS_ignoreSized {s : BsonS} (n : Int) (h : OnDocS t s) : Yields (OnDocS t) (s.ignoreSized n) := by
  unfold BsonS.ignoreSized
  refine (onText_readLE 4 h.1).bind ?_
  rintro ⟨v, i⟩ hi
  dsimp only
  split
  · exact .ub
  · exact onDocS_use _ ⟨on_ignoreInt _ hi, h.2⟩

theorem onDocS_readInt {s : BsonS} (n : Nat) (h : OnDocS t s) : Yields (fun x => OnDocS t x.2) (s.readInt n) := by
  unfold BsonS.readInt
  exact (onDocS_use n h).bind fun s h => (onText_readLE n h.1).bind fun x hx => .ok ⟨hx, h.2⟩

theorem onDocS_next {s : BsonS} (h : OnDocS t s) : Yields (fun x => OnDocS t x.2) s.getNextToken := by
  unfold BsonS.getNextToken
  refine (onDocS_settle h).bind fun s h => ?_
  split
  · refine (onDocS_readKey h).bind fun s h => ?_
    split
    · exact .ub
    · rename_i c _ _
      have hk : ∀ s' : BsonS, OnDocS t s' → Yields (fun x => OnDocS t x.2) (if c = .Map then .ok (.Key, s') else s'.handOut) := by
        intro s' h
        split
        · exact .ok h
        · exact onDocS_handOut h
      refine hk _ ?_
      split
      · exact h
      split
      · exact h
      · exact h
  · exact onDocS_handOut h

theorem onDocS_ignoreData {s : BsonS} (h : OnDocS t s) : Yields (OnDocS t) s.ignoreDataValue := by
  unfold BsonS.ignoreDataValue
  refine either_yields (.ok h) ?_
  iterate 8 refine either_yields (onDocS_ignoreBytes _ h) ?_
  refine either_yields (.ok h) ?_
  exact either_yields (onDocS_ignoreSized _ h) (either_yields (onDocS_ignoreSized _ h) .throwStd)

theorem bsonS_avoids (hk : ¬ k <:+: t) : Avoids BsonS.ops (OnDocS t) k where
  next s h := onDocS_next h
  getKey s h := .ok ⟨fun e => hk (e ▸ h.2), h⟩
  getInt i s h := by
    change Yields _ (BsonS.getInt i s)
    unfold BsonS.getInt
    split
    · exact (onDocS_readInt _ h).bind fun x hx => .ok hx
    split
    · exact (onDocS_readInt _ h).bind fun x hx => .ok hx
    · exact .throwStd
  getFlt f s h := by
    change Yields _ (BsonS.getFlt f s)
    unfold BsonS.getFlt
    split
    · exact (onDocS_readInt _ h).bind fun x hx => .ok hx
    split
    · exact (onDocS_readInt _ h).bind fun x hx => .ok hx
    split
    · refine Yields.bind (P := fun x : Flt × BsonS => OnDocS t x.2) ?_ fun x hx => .ok hx
      unfold BsonS.readDouble
      have hi := on_read 8 h.1
      dsimp only
      split
      · exact .throwStd
      refine (onDocS_use 8 (s := { s with inp := _ }) ⟨hi, h.2⟩).bind fun s h => ?_
      split
      · exact .ub
      · exact .ok h
    · exact .throwStd
  getBool s h := by
    change Yields _ (BsonS.getBool s)
    unfold BsonS.getBool
    split
    · exact .throwStd
    unfold BsonS.readBool
    have hi := on_read 1 h.1
    dsimp only
    split
    · exact .throwStd
    refine (onDocS_use 1 (s := { s with inp := _ }) ⟨hi, h.2⟩).bind fun s h => ?_
    split
    · exact .ok h
    · exact .ok h
    · exact .ub
  getStr s h := by
    change Yields _ (BsonS.getStr s)
    unfold BsonS.getStr
    split
    · exact .throwStd
    unfold BsonS.readString
    refine (onText_readLE 4 h.1).bind ?_
    rintro ⟨n, i⟩ hi
    dsimp only
    refine (onDocS_use 4 (s := { s with inp := _ }) ⟨hi, h.2⟩).bind fun s h => ?_
    split
    · split
      · exact .throwStd
      · exact .ub
    have hi := on_read n.toNat h.1
    split
    · exact .throwStd
    refine (onDocS_use n (s := { s with inp := _ }) ⟨hi, h.2⟩).bind fun s h => ?_
    split
    · exact .throwStd
    · exact .ok h
  ignoreData s h := onDocS_ignoreData h

end
end Thors
