import Verif.Proofs.Track
import Verif.Proofs.JsonCut2
import Verif.Proofs.Yaml
import Verif.Spec.Lexis
/-
What the JSON lexer reads from an arbitrary text.
-/
namespace Thors
open Spec StrIn

/-- The input is good and stands behind `pre`. -/
def Here (D pre post : Bytes) (i : StrIn) : Prop := i = ⟨D, pre.length, true⟩ ∧ D = pre ++ post

theorem Here.rest {D pre post : Bytes} {i : StrIn} (h : Here D pre post i) : i.rest = post := by
  obtain ⟨rfl, rfl⟩ := h
  simp [StrIn.rest]

theorem Here.good {D pre post : Bytes} {i : StrIn} (h : Here D pre post i) : i.good = true := by rw [h.1]
theorem Here.data {D pre post : Bytes} {i : StrIn} (h : Here D pre post i) : i.data = D := by rw [h.1]
theorem Here.pos {D pre post : Bytes} {i : StrIn} (h : Here D pre post i) : i.pos = pre.length := by rw [h.1]
theorem Here.sane {D pre post : Bytes} {i : StrIn} (h : Here D pre post i) : Sane i := fun _ => h.good

theorem Here.cast {D pre pre' post : Bytes} {i : StrIn} (h : Here D pre post i) (e : pre = pre') : Here D pre' post i := e ▸ h

theorem Here.fwd {D pre tok post : Bytes} {i : StrIn} {n : Nat} (h : Here D pre (tok ++ post) i) (hn : tok.length = n) :
    Here D (pre ++ tok) post { i with pos := i.pos + n, good := decide (i.pos + n ≤ i.data.length) } := by
  obtain ⟨rfl, rfl⟩ := h
  subst hn
  refine ⟨?_, by simp⟩
  simp

theorem Here.get {D pre post : Bytes} {c : Byte} {i : StrIn} (h : Here D pre (c :: post) i) : i.get.1 = sext c ∧ Here D (pre ++ [c]) post i.get.2 := by
  obtain ⟨e, -⟩ := get_cons h.good h.rest
  rw [e]
  refine ⟨rfl, ?_⟩
  obtain ⟨rfl, rfl⟩ := h
  exact ⟨by simp, by simp⟩

theorem Here.get_end {D pre : Bytes} {i : StrIn} (h : Here D pre [] i) : i.get.1 = EOFv ∧ i.get.2 = i := by
  obtain ⟨rfl, e⟩ := h
  unfold StrIn.get
  rw [if_neg (by rw [e]; simp)]
  exact ⟨rfl, rfl⟩

theorem Here.unget {D pre post : Bytes} {c : Byte} {i : StrIn} (h : Here D (pre ++ [c]) post i) : Here D pre (c :: post) i.unget := by
  obtain ⟨rfl, rfl⟩ := h
  refine ⟨?_, by simp⟩
  unfold StrIn.unget
  simp

/-! ### white space and classes -/

/-- Punctuation has been consumed by the lexer, anything else not. -/
def punctOf : Lexeme → Bytes
  | .lbrace => [0x7B] | .rbrace => [0x7D] | .lbracket => [0x5B] | .rbracket => [0x5D] | .comma => [0x2C] | .colon => [0x3A]
  | _ => []

/-- What starts with a lexeme of a class. -/
def startsAs (x : Lexeme) (post : Bytes) : Prop := (post = [] ∧ x = .number) ∨ ∃ c r, post = c :: r ∧ Lexer.classify c = x

theorem classify_punct (c : Byte) : punctOf (Lexer.classify c) = if isPunct c then [c] else [] := by
  refine forall_byte (P := fun c => punctOf (Lexer.classify c) = if isPunct c then [c] else []) ?_ c
  decide +kernel

/-- The white space of the library. -/
def LSpace (w : Bytes) : Prop := ∀ c ∈ w, c = 0x20 ∨ c = 0x09 ∨ c = 0x0A ∨ c = 0x0D ∨ c = 0x0B ∨ c = 0x0C

theorem spaces_split : ∀ t : Bytes, t = t.take (spaces t) ++ t.drop (spaces t) ∧ LSpace (t.take (spaces t)) ∧ spaces t ≤ t.length ∧
    ∀ c r, t.drop (spaces t) = c :: r → isSpace c = false
  | [] => ⟨rfl, by intro c hc; simp [spaces] at hc, by simp [spaces], by intro c r h; simp [spaces] at h⟩
  | c :: cs => by
    obtain ⟨h1, h2, h3, h4⟩ := spaces_split cs
    by_cases hc : isSpace c = true
    · simp only [spaces, hc, if_true]
      refine ⟨by simp, ?_, by simp; omega, by simpa using h4⟩
      intro d hd
      simp only [List.take_succ_cons, List.mem_cons] at hd
      rcases hd with rfl | hd
      · simpa [isSpace] using hc
      · exact h2 d hd
    · simp only [spaces, hc, Bool.false_eq_true, if_false]
      refine ⟨by simp, by intro d hd; simp at hd, by simp, ?_⟩
      intro d r h
      simp at h
      rw [← h.1]
      simpa using hc

theorem readChar_lax {D pre post : Bytes} {i : StrIn} (h : Here D pre post i) :
    i.readChar = ((post.drop (spaces post)).headD 0xFF,
      ⟨D, pre.length + spaces post + 1, decide (pre.length + spaces post + 1 ≤ D.length)⟩) := by
  unfold StrIn.readChar
  obtain ⟨e, e2⟩ := h
  have hd : i.data.drop i.pos = post := by rw [e, e2]; simp
  have hp : i.pos = pre.length := by rw [e]
  have hD : i.data = D := by rw [e]
  have hl : D.length = pre.length + post.length := by rw [e2]; simp
  rw [hd, hp, hD, if_pos (by omega)]
  have this : D.getD (pre.length + spaces post) 0 = (post.drop (spaces post)).getD 0 0 := by
    rw [e2]; simp [List.getD_eq_getElem?_getD, List.getElem?_append_right]
  dsimp only
  rw [this]
  cases hc : post.drop (spaces post) with
  | nil =>
    have := congrArg List.length hc
    simp at this
    rw [if_neg (by omega)]
    simp
  | cons c r =>
    have := congrArg List.length hc
    simp at this
    rw [if_pos (by omega)]
    simp

theorem peek_lax {D pre post : Bytes} {i : StrIn} (h : Here D pre post i) :
    ∃ w post', LSpace w ∧ post = w ++ (punctOf (Lexer.classify (peekNextNonSpace i).1) ++ post') ∧
      Here D (pre ++ w ++ punctOf (Lexer.classify (peekNextNonSpace i).1)) post' (peekNextNonSpace i).2 ∧
      (punctOf (Lexer.classify (peekNextNonSpace i).1) = [] → startsAs (Lexer.classify (peekNextNonSpace i).1) post') := by
  obtain ⟨h1, h2, h3, h4⟩ := spaces_split post
  have e2 := h.2
  have hl : D.length = pre.length + post.length := by rw [e2]; simp
  unfold peekNextNonSpace
  rw [readChar_lax h]
  cases hc : post.drop (spaces post) with
  | nil =>
    rw [hc] at h1
    have hq : isPunct 0xFF = false := by decide
    have hx : Lexer.classify 0xFF = .number := by decide
    have hl' := congrArg List.length hc
    simp at hl'
    have h1 : post = post.take (spaces post) := by simpa using h1
    simp only [List.headD_nil, hq, Bool.false_eq_true, if_false, hx, punctOf, List.nil_append, List.append_nil]
    refine ⟨post.take (spaces post), [], h2, by simpa using h1, ⟨?_, by simpa [← h1] using e2⟩, fun _ => .inl ⟨rfl, rfl⟩⟩
    unfold StrIn.unget
    simp [Nat.min_eq_left h3]
    omega
  | cons c r =>
    rw [hc] at h1
    have hl' := congrArg List.length hc
    simp at hl'
    have hp := classify_punct c
    simp only [List.headD_cons]
    by_cases hq : isPunct c = true
    · simp only [hq, if_true] at hp ⊢
      rw [hp]
      refine ⟨post.take (spaces post), r, h2, by simpa using h1, ⟨?_, ?_⟩, by simp⟩
      · simp [Nat.min_eq_left h3]; omega
      · rw [e2]; conv => lhs; rw [h1]
        simp
    · simp only [hq, Bool.false_eq_true, if_false] at hp ⊢
      rw [hp]
      refine ⟨post.take (spaces post), c :: r, h2, by simpa using h1, ⟨?_, ?_⟩, fun _ => .inr ⟨c, r, rfl, rfl⟩⟩
      · unfold StrIn.unget
        simp [Nat.min_eq_left h3]; omega
      · rw [e2]; conv => lhs; rw [h1]
        simp

/-- One lexeme. -/
theorem yylex_lax {D pre post : Bytes} {l : Lexer} (h : Here D pre post l.inp) : ∃ x l', l.yylex = (x, l') ∧
    ∃ w post', LSpace w ∧ post = w ++ (punctOf x ++ post') ∧ Here D (pre ++ w ++ punctOf x) post' l'.inp ∧ (punctOf x = [] → startsAs x post') ∧
      l'.lastToken = some x ∧ l'.lastNull = decide (x = .null_) ∧ l'.buffer = l.buffer ∧ l'.convertBackSlash = l.convertBackSlash := by
  refine ⟨_, _, rfl, ?_⟩
  obtain ⟨w, post', h1, h2, h3, h4⟩ := peek_lax h
  exact ⟨w, post', h1, h2, h3, h4, rfl, rfl, rfl, rfl⟩

end Thors
