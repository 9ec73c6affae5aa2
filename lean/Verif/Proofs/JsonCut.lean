import Verif.Proofs.WatchFresh
import Verif.Proofs.JsonJunk
/-
A JSON parser on a text that stops inside of a container never reaches the end of the container.
-/
namespace Thors
open Spec StrIn

/-- Texts that never close the innermost `d` containers. They are made of JSON lexemes, up to a cut string or a text without
closing brackets. If `w`, all strings are of the kind that can be skipped. -/
inductive Cut (w : Prop) : Nat → Bytes → Prop
  | junk {d : Nat} {t : Bytes} (h : NoClose t) : Cut w d t
  | opens {d : Nat} {ws : Bytes} {c : Byte} {t : Bytes} (hw : Ws ws) (hc : c = 0x7B ∨ c = 0x5B) (h : Cut w (d + 1) t) : Cut w d (ws ++ c :: t)
  | closes {d : Nat} {ws : Bytes} {c : Byte} {t : Bytes} (hw : Ws ws) (hc : c = 0x7D ∨ c = 0x5D) (h : Cut w (d + 1) t) : Cut w (d + 2) (ws ++ c :: t)
  | sep {d : Nat} {ws : Bytes} {c : Byte} {t : Bytes} (hw : Ws ws) (hc : c = 0x2C ∨ c = 0x3A) (h : Cut w d t) : Cut w d (ws ++ c :: t)
  | scalar {d : Nat} {ws : Bytes} {x : JScalar} {tx post : Bytes} (hw : Ws ws) (hx : ScalarText codePair x tx) (he : Ends (.scalar x) post)
      (hk : w → (jsem true).skips x = true) (h : Cut w d post) : Cut w d (ws ++ (tx ++ post))
  | str {d : Nat} {ws body : Bytes} (hw : Ws ws) (h : splitQuote false body = none) : Cut w d (ws ++ 0x22 :: body)

/-- The input stands in front of such a text. -/
def AtCut (w : Prop) (d : Nat) (i : StrIn) : Prop := (∃ t, AtI t i ∧ Cut w d t) ∨ Junk i

theorem AtI.sane {t : Bytes} {i : StrIn} (h : AtI t i) : Sane i := fun _ => h.2.1

theorem Later.cut {w : Prop} {d : Nat} {a b : StrIn} (h : Later a b) (hj : Junk a) : AtCut w d b := .inr (h.junk hj)

/-- A lexeme that is not a bracket or separator was just seen. -/
inductive Fresh (w : Prop) (conv : Bool) (d : Nat) (l : Lexer) : Prop
  | junk (h : Junk l.inp)
  | scalar {x : JScalar} {ch : Byte} {cs post : Bytes} (hx : ScalarText codePair x (ch :: cs)) (he : Ends (.scalar x) post)
      (hl : Lexed conv ch (cs ++ post) l) (hk : w → (jsem true).skips x = true) (h : Cut w d post)
  | str {body : Bytes} (hl : Lexed conv 0x22 body l) (h : splitQuote false body = none)

/-- What `yylex` sees, and where it then stands. -/
inductive Seen (w : Prop) (conv : Bool) (d : Nat) : Lexeme → Lexer → Prop
  | opens {x : Lexeme} {l : Lexer} (hx : x = .lbrace ∨ x = .lbracket) (h : AtCut w (d + 1) l.inp) : Seen w conv d x l
  | closes {x : Lexeme} {l : Lexer} {e : Nat} (hx : x = .rbrace ∨ x = .rbracket) (hd : d = e + 2) (h : AtCut w (e + 1) l.inp) : Seen w conv d x l
  | sep {x : Lexeme} {l : Lexer} (hx : x = .comma ∨ x = .colon) (h : AtCut w d l.inp) : Seen w conv d x l
  | value {x : Lexeme} {l : Lexer} (hx : x = .true_ ∨ x = .false_ ∨ x = .null_ ∨ x = .string ∨ x = .number) (h : Fresh w conv d l) : Seen w conv d x l

theorem yylex_cut {w : Prop} {conv : Bool} {d : Nat} {l : Lexer} (hcv : l.convertBackSlash = conv) (h : AtCut w d l.inp) :
    Seen w conv d l.yylex.1 l.yylex.2 := by
  have hjunk : Junk l.inp → Seen w conv d l.yylex.1 l.yylex.2 := by
    intro hj
    have h1 := yylex_junk hj
    have h2 := (later_yylex l).junk hj
    cases hx : l.yylex.1 with
    | lbrace => exact .opens (.inl rfl) (.inr h2)
    | lbracket => exact .opens (.inr rfl) (.inr h2)
    | rbrace => exact absurd hx h1.1
    | rbracket => exact absurd hx h1.2
    | comma => exact .sep (.inl rfl) (.inr h2)
    | colon => exact .sep (.inr rfl) (.inr h2)
    | true_ => exact .value (by simp) (.junk h2)
    | false_ => exact .value (by simp) (.junk h2)
    | null_ => exact .value (by simp) (.junk h2)
    | string => exact .value (by simp) (.junk h2)
    | number => exact .value (by simp) (.junk h2)
  rcases h with ⟨t, hat, hc⟩ | hj
  · cases hc with
    | junk h => exact hjunk ⟨by rw [hat.1]; exact h, hat.sane⟩
    | opens hw hc h =>
      rcases hc with rfl | rfl
      · obtain ⟨l', e, hl⟩ := yylex_at hat hcv hw (by decide)
        rw [e]
        exact .opens (.inl (by dsimp only; decide)) (.inl ⟨_, hl.inp, h⟩)
      · obtain ⟨l', e, hl⟩ := yylex_at hat hcv hw (by decide)
        rw [e]
        exact .opens (.inr (by dsimp only; decide)) (.inl ⟨_, hl.inp, h⟩)
    | closes hw hc h =>
      rcases hc with rfl | rfl
      · obtain ⟨l', e, hl⟩ := yylex_at hat hcv hw (by decide)
        rw [e]
        exact .closes (.inl (by dsimp only; decide)) rfl (.inl ⟨_, hl.inp, h⟩)
      · obtain ⟨l', e, hl⟩ := yylex_at hat hcv hw (by decide)
        rw [e]
        exact .closes (.inr (by dsimp only; decide)) rfl (.inl ⟨_, hl.inp, h⟩)
    | sep hw hc h =>
      rcases hc with rfl | rfl
      · obtain ⟨l', e, hl⟩ := yylex_at hat hcv hw (by decide)
        rw [e]
        exact .sep (.inl (by dsimp only; decide)) (.inl ⟨_, hl.inp, h⟩)
      · obtain ⟨l', e, hl⟩ := yylex_at hat hcv hw (by decide)
        rw [e]
        exact .sep (.inr (by dsimp only; decide)) (.inl ⟨_, hl.inp, h⟩)
    | @scalar _ ws x tx post hw hx he hk h =>
      obtain ⟨ch, cs, rfl, h1, h2, h3⟩ := scalar_head hx
      obtain ⟨l', e, hl⟩ := yylex_at hat hcv hw h2
      rw [e]
      refine .value ?_ (.scalar hx he hl hk h)
      dsimp only
      rw [h1]
      cases x with
      | bool b => cases b <;> simp [lexOf]
      | _ => simp [lexOf]
    | str hw h =>
      obtain ⟨l', e, hl⟩ := yylex_at hat hcv hw (by decide)
      rw [e]
      exact .value (by simp only [show Lexer.classify 0x22 = .string by decide]; simp) (.str hl h)
  · exact hjunk hj

/-! ### reading -/

/-- A string without a closing quote is never skipped. -/
theorem scanQuote_none {ctl : Bool} : ∀ (f : Nat) (t : Bytes) (s : StrIn) (e : Bool) (last : Byte) (acc : Bytes), AtI t s → splitQuote e t = none →
    (e = true → last = 0x5C) → Yields (fun _ => False) (Lexer.scanQuote ctl f s last acc)
  | 0, _, _, _, _, _, _, _, _ => .ub
  | f + 1, t, s, e, last, acc, hat, hsp, hl => by
    unfold Lexer.scanQuote
    cases t with
    | nil =>
      rw [at_get_nil hat]
      simp only [ne_eq, not_true_eq_false, false_and, if_false, if_true]
      exact .throwStd
    | cons c t =>
      obtain ⟨s', h1, h2, -, -⟩ := at_get hat
      rw [h1]
      simp only [toChar_sext]
      have key : ∀ acc', Yields (fun _ => False) (Lexer.scanQuote ctl f s' c acc') := by
        intro acc'
        cases e with
        | true =>
          simp only [splitQuote, Option.map_eq_none_iff] at hsp
          exact scanQuote_none f t s' false c acc' h2 hsp (by simp)
        | false =>
          simp only [splitQuote] at hsp
          split at hsp
          · cases hsp
          · simp only [Option.map_eq_none_iff] at hsp
            exact scanQuote_none f t s' _ c acc' h2 hsp (by simp)
      split
      · split
        · exact .throwStd
        · exact key _
      · rename_i hn
        split
        · exact .throwStd
        · rename_i hne
          exfalso
          apply hn
          refine ⟨hne, ?_⟩
          rintro ⟨h3, h4⟩
          have hc : c = 0x22 := by
            have : sext c = sext 0x22 := h3
            exact sext_inj this
          subst hc
          cases e with
          | true => exact h4 (hl rfl)
          | false => simp [splitQuote] at hsp

/-- Reading a string anywhere. -/
theorem getString_cut {w : Prop} {d : Nat} {l : Lexer} (h : AtCut w d l.inp) :
    Yields (fun x => AtCut w d x.2.inp ∧ x.2.convertBackSlash = l.convertBackSlash) l.getStringInto := by
  have hconv : Yields (fun x => x.2.convertBackSlash = l.convertBackSlash) l.getStringInto := by
    unfold Lexer.getStringInto
    dsimp only
    split
    · exact .throwStd
    refine Yields.bind (P := fun _ => True) (fun _ _ => trivial) fun _ _ => ?_
    refine Yields.bind (P := fun _ => True) (fun _ _ => trivial) fun _ _ => ?_
    refine Yields.bind (P := fun _ => True) (fun _ _ => trivial) fun _ _ => ?_
    exact .ok rfl
  suffices hh : Yields (fun x => AtCut w d x.2.inp) l.getStringInto from fun x e => ⟨hh x e, hconv x e⟩
  have hbad : ∀ {c : Byte} {t : Bytes}, AtI (c :: t) l.inp → c ≠ 0x22 → Yields (fun x => AtCut w d x.2.inp) l.getStringInto := by
    intro c t h1 h2
    rw [getString_bad h1 h2]
    exact .throwStd
  have hws : ∀ {ws : Bytes} {t : Bytes}, Ws ws → AtI (ws ++ t) l.inp → ws = [] ∨ Yields (fun x => AtCut w d x.2.inp) l.getStringInto := by
    intro ws t h1 h2
    cases ws with
    | nil => exact .inl rfl
    | cons c ws =>
      right
      refine hbad h2 ?_
      rcases h1 c (by simp) with h | h | h | h <;> (rw [h]; decide)
  have hjunk : Junk l.inp → Yields (fun x => AtCut w d x.2.inp) l.getStringInto := fun hj => (later_getStringInto hj.sane).mono fun x hx => hx.cut hj
  rcases h with ⟨t, hat, hc⟩ | hj
  · cases hc with
    | junk h => exact hjunk ⟨by rw [hat.1]; exact h, hat.sane⟩
    | opens hw hc h =>
      rcases hws hw hat with rfl | h
      · exact hbad hat (by rcases hc with rfl | rfl <;> decide)
      · exact h
    | closes hw hc h =>
      rcases hws hw hat with rfl | h
      · exact hbad hat (by rcases hc with rfl | rfl <;> decide)
      · exact h
    | sep hw hc h =>
      rcases hws hw hat with rfl | h
      · exact hbad hat (by rcases hc with rfl | rfl <;> decide)
      · exact h
    | @scalar _ ws x tx post hw hx he hk h =>
      rcases hws hw hat with rfl | h
      · have hat' : AtI (tx ++ post) l.inp := hat
        obtain ⟨ch, cs, e, h1, h2, h3⟩ := scalar_head hx
        by_cases hq : ch = 0x22
        · have : ∃ b, x = .str b := by
            rw [hq, show Lexer.classify 0x22 = .string by decide] at h1
            cases x with
            | str b => exact ⟨b, rfl⟩
            | bool b => cases b <;> simp [lexOf] at h1
            | _ => simp [lexOf] at h1
          obtain ⟨b, rfl⟩ := this
          obtain ⟨hb, rfl⟩ := hx
          obtain ⟨l', e1, h4, -⟩ := getString_at hb hat'
          rw [e1]
          exact .ok (.inl ⟨_, h4, h⟩)
        · rw [e] at hat'
          exact hbad hat' hq
      · exact h
    | str hw h =>
      rcases hws hw hat with rfl | h'
      · have hat' := hat
        rcases getStringInto_none l _ hat'.2.1 hat'.1 h with e | ⟨v, e⟩
        · rw [e]; exact .throwStd
        · rw [e]
          refine .ok (.inr ⟨?_, ?_⟩)
          · unfold StrIn.rest
            dsimp only
            rw [List.drop_eq_nil_of_le (by omega)]
            intro c hc; cases hc
          · intro h; dsimp only at h; omega
      · exact h'
  · exact hjunk hj

/-- The parser is inside of `d` containers of such a text. -/
structure Inside (c : JCtl) : Prop where
  state : c.currentState = .OpenM ∨ c.currentState = .Key ∨ c.currentState = .Colon ∨ c.currentState = .ValueM ∨ c.currentState = .CommaM ∨
    c.currentState = .OpenA ∨ c.currentState = .ValueA ∨ c.currentState = .CommaA
  ends : c.currentEnd = .ValueM ∨ c.currentEnd = .ValueA
  stack : ∃ ps, c.parrentState = ps ++ [.Done] ∧ ∀ p ∈ ps, p = .ValueM ∨ p = .ValueA

/-- Inside of a cut container. -/
structure Live (w : Prop) (conv : Bool) (s : JsonP) : Prop where
  started : s.ctl.started = true
  conv : s.lex.convertBackSlash = conv
  ctl : Inside s.ctl
  text : AtCut w s.ctl.parrentState.length s.lex.inp

/-- In front of a cut container. -/
structure Start (w : Prop) (conv : Bool) (s : JsonP) : Prop where
  ctl : s.ctl = ⟨.Done, .Init, [], true⟩
  conv : s.lex.convertBackSlash = conv
  text : ∃ ws c t, Ws ws ∧ (c = 0x7B ∨ c = 0x5B) ∧ Cut w 1 t ∧ AtI (ws ++ c :: t) s.lex.inp
  none : s.lex.lastToken = none

/-- The parser has reported an error. -/
def Failed (s : JsonP) : Prop := s.ctl.started = true ∧ s.ctl.currentState = .Error

/-- The invariant. -/
def CutInv (w : Prop) (conv : Bool) (s : JsonP) : Prop := Failed s ∨ Live w conv s ∨ Start w conv s

/-- A token was just given. -/
def CutF (w : Prop) (conv : Bool) (s : JsonP) : Prop :=
  Failed s ∨ (∃ x, s.lex.lastToken = some x ∧ s.lex.lastNull = decide (x = .null_) ∧
    (x = .lbrace ∨ x = .lbracket ∨ x = .rbrace ∨ x = .rbracket)) ∨ Fresh w conv s.ctl.parrentState.length s.lex ∧ s.lex.lastToken ≠ none

/-- A value was just given. -/
def CutV (w : Prop) (conv : Bool) (s : JsonP) : Prop := Failed s ∨ Fresh w conv s.ctl.parrentState.length s.lex

def CutA (s : JsonP) : Prop := s.ctl.currentState = .Error ∨ s.ctl.currentState = .Key
def CutB (s : JsonP) : Prop := s.ctl.currentState = .Error ∨ s.ctl.currentState = .ValueM

/-- What is known after one lexeme. -/
structure Fed (w : Prop) (conv : Bool) (st : JState) (t : Option Tok) (s : JsonP) : Prop where
  inv : Failed s ∨ Live w conv s
  fresh : t ≠ none → CutF w conv s
  tok : t ≠ some .DocEnd
  val : t = some .Value → CutV w conv s
  key : t = some .Key → CutA s
  sep : t = none → Live w conv s ∧ (st = .Key → s.ctl.currentState = .Colon) ∧ (st = .ValueM → s.ctl.currentState = .CommaM)
  mem : st = .Colon → t = some .Value → CutB s
  coma : st = .CommaM ∨ st = .ValueM → t ≠ some .Value ∧ t ≠ some .MapStart ∧ t ≠ some .ArrayStart
  keyv : st = .Key → t ≠ some .Value

theorem fed_error {w : Prop} {conv : Bool} {st : JState} {s : JsonP} (h : Failed s) : Fed w conv st (some .Error) s where
  inv := .inl h
  fresh _ := .inl h
  tok := by simp
  val := by simp
  key := by simp
  sep := by simp
  mem := by simp
  coma := by simp
  keyv := by simp

set_option maxHeartbeats 1000000 in
theorem feed_cut {w : Prop} {conv : Bool} {s : JsonP} (h : Live w conv s) {x : Lexeme} {l : Lexer} (hy : s.lex.yylex = (x, l)) :
    Yields (fun r => Fed w conv s.ctl.currentState r.1 ⟨l, r.2⟩) (s.ctl.feed x) := by
  have hseen := yylex_cut h.conv h.text
  rw [hy] at hseen
  dsimp only at hseen
  obtain ⟨hcv, hlt, hln⟩ := yylex_ok hy
  obtain ⟨hst, hen, ps, hps, hall⟩ := h.ctl
  obtain ⟨lx, ⟨ce, cs, pst, stt⟩⟩ := s
  have hstart := h.started
  have hconv := h.conv
  clear h
  dsimp only at *
  subst hstart hps
  cases hseen with
  | opens hx ht =>
    have hlive : ∀ st e, (st = JState.OpenM ∨ st = JState.OpenA) → (e = JState.ValueM ∨ e = .ValueA) →
        Live w conv ⟨l, ⟨e, st, ce :: (ps ++ [.Done]), true⟩⟩ := by
      intro st e h1 h2
      refine ⟨rfl, hcv.trans hconv, ⟨by dsimp only; rcases h1 with rfl | rfl <;> simp, h2, ⟨ce :: ps, rfl, ?_⟩⟩, ?_⟩
      · intro p hp
        rcases List.mem_cons.1 hp with rfl | hp
        · exact hen
        · exact hall p hp
      · simpa using ht
    have hf : ∀ c, CutF w conv ⟨l, c⟩ := fun c => .inr (.inl ⟨x, hlt, hln, by rcases hx with rfl | rfl <;> simp⟩)
    have hA : ∀ st e t, (st = JState.OpenM ∨ st = JState.OpenA) → (e = JState.ValueM ∨ e = .ValueA) → t = Tok.MapStart ∨ t = .ArrayStart →
        cs ≠ .CommaM → cs ≠ .ValueM → Fed w conv cs (some t) ⟨l, ⟨e, st, ce :: (ps ++ [.Done]), true⟩⟩ := by
      intro st e t h1 h2 h3 h4 h5
      refine ⟨.inr (hlive st e h1 h2), fun _ => hf _, ?_, ?_, ?_, by simp, ?_, ?_, ?_⟩
      all_goals rcases h3 with rfl | rfl <;> simp [h4, h5]
    rcases hx with rfl | rfl <;> rcases hst with rfl | rfl | rfl | rfl | rfl | rfl | rfl | rfl <;>
      first
      | exact .ok (fed_error ⟨rfl, rfl⟩)
      | exact .ok (hA .OpenM .ValueM .MapStart (by simp) (by simp) (by simp) (by simp) (by simp))
      | exact .ok (hA .OpenA .ValueA .ArrayStart (by simp) (by simp) (by simp) (by simp) (by simp))
  | @closes e hx hd ht =>
    cases ps with
    | nil => simp at hd
    | cons p ps =>
      simp only [List.cons_append, List.length_cons, List.length_append, List.length_nil] at hd
      have hp := hall p (by simp)
      have hlive : Live w conv ⟨l, ⟨p, p, ps ++ [.Done], true⟩⟩ := by
        refine ⟨rfl, hcv.trans hconv, ⟨by dsimp only; rcases hp with rfl | rfl <;> simp, hp, ⟨ps, rfl, fun q hq => hall q (by simp [hq])⟩⟩, ?_⟩
        have : e + 1 = (ps ++ [JState.Done]).length := by simp; omega
        rw [this] at ht
        exact ht
      have hf : ∀ c, CutF w conv ⟨l, c⟩ := fun c => .inr (.inl ⟨x, hlt, hln, by rcases hx with rfl | rfl <;> simp⟩)
      have hA : ∀ t, t = Tok.MapEnd ∨ t = .ArrayEnd → Fed w conv cs (some t) ⟨l, ⟨p, p, ps ++ [.Done], true⟩⟩ := by
        intro t h3
        refine ⟨.inr hlive, fun _ => hf _, ?_, ?_, ?_, by simp, ?_, ?_, ?_⟩
        all_goals rcases h3 with rfl | rfl <;> simp
      rcases hx with rfl | rfl <;> rcases hst with rfl | rfl | rfl | rfl | rfl | rfl | rfl | rfl <;>
        first
        | exact .ok (fed_error ⟨rfl, rfl⟩)
        | exact .ok (hA .MapEnd (by simp))
        | exact .ok (hA .ArrayEnd (by simp))
  | sep hx ht =>
    have hlive : ∀ st, (st = JState.Colon ∨ st = .CommaM ∨ st = .CommaA) → Live w conv ⟨l, ⟨ce, st, ps ++ [.Done], true⟩⟩ := by
      intro st h1
      exact ⟨rfl, hcv.trans hconv, ⟨by dsimp only; rcases h1 with rfl | rfl | rfl <;> simp, hen, ⟨ps, rfl, hall⟩⟩, ht⟩
    have hA : ∀ st, (st = JState.Colon ∨ st = .CommaM ∨ st = .CommaA) → (cs = .Key → st = .Colon) → (cs = .ValueM → st = .CommaM) →
        Fed w conv cs none ⟨l, ⟨ce, st, ps ++ [.Done], true⟩⟩ := by
      intro st h1 h2 h3
      exact ⟨.inr (hlive st h1), by simp, by simp, by simp, by simp, fun _ => ⟨hlive st h1, h2, h3⟩, by simp, by simp, by simp⟩
    rcases hx with rfl | rfl <;> rcases hst with rfl | rfl | rfl | rfl | rfl | rfl | rfl | rfl <;>
      first
      | exact .ok (fed_error ⟨rfl, rfl⟩)
      | exact .ok (hA .Colon (by simp) (by simp) (by simp))
      | exact .ok (hA .CommaM (by simp) (by simp) (by simp))
      | exact .ok (hA .CommaA (by simp) (by simp) (by simp))
  | value hx ht =>
    have hlive : ∀ st, (st = JState.Key ∨ st = .ValueM ∨ st = .ValueA) → Live w conv ⟨l, ⟨ce, st, ps ++ [.Done], true⟩⟩ := by
      intro st h1
      refine ⟨rfl, hcv.trans hconv, ⟨by dsimp only; rcases h1 with rfl | rfl | rfl <;> simp, hen, ⟨ps, rfl, hall⟩⟩, ?_⟩
      cases ht with
      | junk h => exact .inr h
      | @scalar x ch cs post hx he hl hk h =>
        obtain ⟨ch', cs', e, h1, h2, h3⟩ := scalar_head hx
        obtain ⟨rfl, rfl⟩ := List.cons.inj e
        have hin := hl.inp
        rw [h3, if_neg (by simp)] at hin
        exact .inl ⟨_, hin, .scalar (ws := []) (tx := ch :: cs) (by intro c hc; cases hc) hx he hk h⟩
      | str hl h =>
        have hin := hl.inp
        rw [if_neg (by decide)] at hin
        exact .inl ⟨_, hin, .str (ws := []) (by intro c hc; cases hc) h⟩
    have hf : ∀ st, CutF w conv ⟨l, ⟨ce, st, ps ++ [.Done], true⟩⟩ := fun st => .inr (.inr ⟨ht, by rw [hlt]; simp⟩)
    have hv : ∀ st, CutV w conv ⟨l, ⟨ce, st, ps ++ [.Done], true⟩⟩ := fun st => .inr ht
    have hK : Fed w conv cs (some .Key) ⟨l, ⟨ce, .Key, ps ++ [.Done], true⟩⟩ :=
      ⟨.inr (hlive _ (by simp)), fun _ => hf _, by simp, by simp, fun _ => .inr rfl, by simp, by simp, by simp, by simp⟩
    have hA : ∀ st, (st = JState.ValueM ∨ st = .ValueA) → (cs = .Colon → st = .ValueM) → cs ≠ .CommaM → cs ≠ .ValueM → cs ≠ .Key →
        Fed w conv cs (some .Value) ⟨l, ⟨ce, st, ps ++ [.Done], true⟩⟩ := by
      intro st h1 h2 h3 h4 h5
      exact ⟨.inr (hlive st (by rcases h1 with rfl | rfl <;> simp)), fun _ => hf _, by simp, fun _ => hv _, by simp, by simp,
        fun e _ => .inr (h2 e), by simp [h3, h4], by simp [h5]⟩
    rcases hx with rfl | rfl | rfl | rfl | rfl <;> rcases hst with rfl | rfl | rfl | rfl | rfl | rfl | rfl | rfl <;>
      first
      | exact .ok (fed_error ⟨rfl, rfl⟩)
      | exact .ok hK
      | exact .ok (hA .ValueM (by simp) (by simp) (by simp) (by simp) (by simp))
      | exact .ok (hA .ValueA (by simp) (by simp) (by simp) (by simp) (by simp))

/-- What is known after one token. -/
structure Told (w : Prop) (conv : Bool) (st : JState) (t : Tok) (s : JsonP) : Prop where
  inv : Failed s ∨ Live w conv s
  fresh : CutF w conv s
  tok : t ≠ .DocEnd
  val : t = .Value → CutV w conv s
  key : t = .Key → CutA s
  mem : st = .Key → t = .Value → CutB s
  coma : st = .ValueM → t ≠ .Value ∧ t ≠ .MapStart ∧ t ≠ .ArrayStart

theorem next_cut_live {w : Prop} {conv : Bool} {s : JsonP} (h : Live w conv s) : Yields (fun r => Told w conv s.ctl.currentState r.1 r.2) s.getNextToken := by
  unfold JsonP.getNextToken
  rw [if_neg (by simp [h.started]), if_neg, if_neg]
  · rw [JsonP.lexStep]
    generalize hy : s.lex.yylex = y
    obtain ⟨x, l⟩ := y
    dsimp only
    refine (feed_cut h hy).bind ?_
    rintro ⟨t, c⟩ f
    dsimp only at f ⊢
    cases t with
    | some t =>
      refine Yields.ok ?_
      dsimp only
      exact ⟨f.inv, f.fresh (by simp), by simpa using f.tok, fun e => f.val (congrArg some e), fun e => f.key (congrArg some e),
        fun e e' => absurd (congrArg some e') (f.keyv e), fun e => by simpa using f.coma (.inr e)⟩
    | none =>
      obtain ⟨h2, h3, h4⟩ := f.sep rfl
      dsimp only
      rw [JsonP.lexStep]
      dsimp only
      generalize hy' : l.yylex = y'
      obtain ⟨x', l'⟩ := y'
      dsimp only
      refine (feed_cut h2 hy').bind ?_
      rintro ⟨t, c'⟩ f'
      dsimp only at f' ⊢
      cases t with
      | some t =>
        refine Yields.ok ?_
        dsimp only
        exact ⟨f'.inv, f'.fresh (by simp), by simpa using f'.tok, fun e => f'.val (congrArg some e), fun e => f'.key (congrArg some e),
          fun e e' => f'.mem (h3 e) (congrArg some e'), fun e => by simpa using f'.coma (.inl (h4 e))⟩
      | none => exact .ub
  · intro e
    have := h.ctl.state
    rw [e] at this
    simp at this
  · intro e
    have := h.ctl.state
    rw [e] at this
    simp at this

theorem next_cut_failed {s : JsonP} (h : Failed s) : s.getNextToken = .ok (.Error, s) := by
  unfold JsonP.getNextToken
  rw [if_neg (by simp [h.1]), if_neg (by rw [h.2]; simp), if_pos h.2]

theorem next_cut_start {w : Prop} {conv : Bool} {s : JsonP} (h : Start w conv s) :
    Yields (fun r => Live w conv r.2 ∧ CutF w conv r.2 ∧ (r.1 = .MapStart ∨ r.1 = .ArrayStart)) s.getNextToken := by
  obtain ⟨ws, c, t, h1, h2, h3, h4⟩ := h.text
  have hl : ∀ {l : Lexer} {st e : JState}, (st = .OpenM ∨ st = .OpenA) → (e = .ValueM ∨ e = .ValueA) → isPunct c = true → Lexed conv c t l →
      Live w conv ⟨l, ⟨e, st, [.Done], true⟩⟩ := by
    intro l st e h5 h6 h7 h8
    have hin := h8.inp
    rw [h7, if_pos rfl] at hin
    exact ⟨rfl, h8.conv, ⟨by dsimp only; rcases h5 with rfl | rfl <;> simp, h6, ⟨[], rfl, by simp⟩⟩, .inl ⟨_, hin, h3⟩⟩
  rcases h2 with rfl | rfl
  · obtain ⟨l, e, h5⟩ := next_lex (conv := conv) (c := s.ctl) (c' := ⟨.ValueM, .OpenM, [.Done], true⟩) (tok := .MapStart) (by rw [h.ctl]) (by rw [h.ctl]; simp) (by rw [h.ctl]; simp)
      ⟨rfl, h4, h.conv⟩ h1 (by decide) (by rw [h.ctl]; rfl)
    rw [e]
    exact .ok ⟨hl (by simp) (by simp) (by decide) h5, .inr (.inl ⟨_, h5.tok, h5.null, by decide⟩), .inl rfl⟩
  · obtain ⟨l, e, h5⟩ := next_lex (conv := conv) (c := s.ctl) (c' := ⟨.ValueA, .OpenA, [.Done], true⟩) (tok := .ArrayStart) (by rw [h.ctl]) (by rw [h.ctl]; simp) (by rw [h.ctl]; simp)
      ⟨rfl, h4, h.conv⟩ h1 (by decide) (by rw [h.ctl]; rfl)
    rw [e]
    exact .ok ⟨hl (by simp) (by simp) (by decide) h5, .inr (.inl ⟨_, h5.tok, h5.null, by decide⟩), .inr rfl⟩

/-- A read, in a state that is not the start. -/
theorem live_keep {w : Prop} {conv : Bool} {s : JsonP} {l : Lexer} (h : Live w conv s) (h1 : AtCut w s.ctl.parrentState.length l.inp)
    (h2 : l.convertBackSlash = conv) : Live w conv { s with lex := l } := ⟨h.started, h2, h.ctl, h1⟩

theorem cutF_not_start {w : Prop} {conv : Bool} {s : JsonP} (h : CutF w conv s) (hs : Start w conv s) : False := by
  have := hs.none
  rcases h with h | ⟨x, h, -⟩ | h
  · rw [Failed, hs.ctl] at h; simp at h
  · rw [this] at h; simp at h
  · exact h.2 this

/-- Reads of JSON change the lexer only. -/
theorem reads_ctl {s : JsonP} : (∀ k, Yields (fun x => x.2.ctl = s.ctl) (s.getInt k)) ∧ (∀ f, Yields (fun x => x.2.ctl = s.ctl) (s.getFlt f)) ∧
    Yields (fun x => x.2.ctl = s.ctl) s.getBool ∧ Yields (fun x => x.2.ctl = s.ctl) s.getStr ∧ Yields (fun x => x.2.ctl = s.ctl) s.getKey ∧
    Yields (fun x => x.ctl = s.ctl) s.ignoreDataValue := by
  refine ⟨fun k => ?_, fun f => ?_, ?_, ?_, ?_, ?_⟩
  all_goals exact Yields.bind (P := fun _ => True) (fun _ _ => trivial) fun _ _ => .ok rfl

theorem failed_of_ctl {s s' : JsonP} (h : Failed s) (e : s'.ctl = s.ctl) : Failed s' := ⟨by rw [e]; exact h.1, by rw [e]; exact h.2⟩

end Thors
