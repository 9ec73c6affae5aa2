import Verif.Proofs.JsonInt
import Verif.Spec.Range
/-
Properties C08, C09, C10, C47: JSON integers.
-/
namespace Thors.Props
open Thors Spec StrIn

/-- A lexer at the start of a text (used in the non-vacuity examples). -/
def atText (d : Bytes) : Lexer :=
  { inp := StrIn.ofBytes d, buffer := [], lastToken := some .number, lastBool := false, lastNull := false,
    convertBackSlash := true }

/-- C08. Every integer survives a JSON round trip: any value of any width and signedness, followed by
anything that does not continue a number, is read back unchanged, and the reader stops right behind
it. -/
theorem C08_int_round_trip (k : IntKind) (i : Int) (hfit : InRange k i) (post : Bytes) (hp : numberEnds post)
    (l : Lexer) (hg : l.inp.good = true) (hr : l.inp.rest = intText i ++ post) :
    ∃ l', l.scanInt k = .ok (i, l') ∧ l'.inp.rest = post ∧ l'.inp.good = true ∧ l' = { l with inp := l'.inp } := by
  have hs : k.signed = true ∨ 0 ≤ i ∧ ∀ cs, intText i ≠ 0x2D :: cs := by
    cases hk : k.signed with
    | true => left; rfl
    | false =>
      right
      have h0 : 0 ≤ i := by
        have := (fits_iff.2 hfit).1
        simp [IntKind.lo, hk] at this
        exact this
      refine ⟨h0, ?_⟩
      intro cs he
      have h1 : intText i = natText i.natAbs := by unfold intText; rw [if_neg (by omega)]
      rw [h1] at he
      have := (dec_iff.mp (natText_dec i.natAbs)).2.1 0x2D (by rw [he]; simp)
      simp [isDigit] at this
  have hz : zeroOk (intText i) = true := by
    unfold zeroOk
    split
    · rename_i c t he
      exfalso
      apply intText_noLeadingZero i
      rw [he]
      simp [litLeadingZero, leadingZero]
    · rfl
  rw [scanInt_lit l k (intText_lit i) hp hs hg hr, hz, if_neg (by simp), if_pos (fits_iff.2 hfit)]
  exact ⟨_, rfl, rest_adv hr true, rfl, rfl⟩

/-- non-vacuity: the smallest 64 bit value followed by a closing bracket. -/
example : InRange ⟨64, true⟩ (-9223372036854775808) ∧ numberEnds b!"]" ∧
    (atText (intText (-9223372036854775808) ++ b!"]")).inp.rest = intText (-9223372036854775808) ++ b!"]" := by
  refine ⟨by decide, by decide, rfl⟩

/-- The full statement of C09: an integer literal outside the range of the destination type makes the
read fail. -/
def C09_full : Prop :=
  ∀ (k : IntKind) (t post : Bytes) (i : Int) (l : Lexer), IntLit t i → ¬ InRange k i → numberEnds post →
    l.inp.good = true → l.inp.rest = t ++ post → ∃ e, l.scanInt k = .throw e

/-- C09, the part that holds: if reading an integer returns a defined value, then it is the value of
the literal and that value fits the destination; a value outside the range is never silently replaced
by another *defined* one. Missing from C09: an out of range literal is not reported, the call returns
an indeterminate value (`ub` in the model). -/
theorem C09_value_exact_partial (k : IntKind) (t post : Bytes) (i v : Int) (l l' : Lexer) (h : IntLit t i)
    (hp : numberEnds post) (hg : l.inp.good = true) (hr : l.inp.rest = t ++ post)
    (hok : l.scanInt k = .ok (v, l')) : v = i ∧ InRange k i ∧ l'.inp.rest = post := by
  by_cases hs : k.signed = true ∨ 0 ≤ i ∧ ∀ cs, t ≠ 0x2D :: cs
  · rw [scanInt_lit l k h hp hs hg hr] at hok
    split at hok
    · cases hok
    split at hok
    · cases hok
      exact ⟨rfl, fits_iff.1 ‹_›, rest_adv hr true⟩
    · cases hok
  · -- an unsigned destination and a minus sign: `from_chars` rejects it
    have hneg : ∃ cs, t = 0x2D :: cs := by
      cases h with
      | pos hd =>
        exfalso; apply hs; right
        refine ⟨by omega, ?_⟩
        rintro cs rfl
        have := (dec_iff.mp hd).2.1 0x2D (by simp)
        simp [isDigit] at this
      | neg hd => exact ⟨_, rfl⟩
    obtain ⟨cs, rfl⟩ := hneg
    have hsg : k.signed = false := by cases hk : k.signed <;> simp_all
    exfalso
    unfold Lexer.scanInt readIntValue at hok
    have hz : checkZero l.inp = .ok l.inp := by
      rw [checkZero_eq hg (by rw [hr]; simp), hr]; rfl
    rw [hz] at hok
    simp only [Res.ok_bind, StrIn.readInt] at hok
    have hpos := rest_pos (hr.trans (List.cons_append ..))
    rw [if_neg (by omega)] at hok
    have hr0 := hr
    unfold StrIn.rest at hr0
    rw [hr0] at hok
    simp [fromChars, hsg, digitPrefix, isDigit, validateResult] at hok

/-- C09 does not hold for string input: `70000` read into a `short` reports no failure. -/
theorem C09_false : ¬ C09_full := by
  intro h
  have hl : IntLit b!"70000" 70000 := by
    have := intText_lit 70000
    have e : intText 70000 = b!"70000" := by simp [intText, natText]
    rwa [e] at this
  obtain ⟨e, he⟩ := h ⟨16, true⟩ b!"70000" [] 70000 (atText b!"70000") hl (by decide) (by decide) rfl rfl
  rw [scanInt_lit (atText b!"70000") ⟨16, true⟩ (post := []) hl (by decide) (Or.inl rfl) rfl rfl] at he
  rw [if_neg (by decide), if_neg (by decide)] at he
  cases he

example : IntLit b!"-12" (-12) := .neg (.snoc (t := b!"1") (n := 1) (.one (.mk 1 (by decide))) (.mk 2 (by decide)))

/-- The full statement of C10, restricted to literals whose value fits (see C09): a literal is accepted
exactly when it has no superfluous leading zero. -/
def C10_full : Prop :=
  ∀ (k : IntKind) (t post : Bytes) (i : Int) (l : Lexer), IntLit t i → k.signed = true → InRange k i → numberEnds post →
    l.inp.good = true → l.inp.rest = t ++ post → ((∃ r, l.scanInt k = .ok r) ↔ ¬ litLeadingZero t)

/-- C10 as it really is: a literal that fits is rejected exactly when it has no sign, starts with a zero
and continues with a digit other than zero. -/
theorem C10_which_zeros_rejected (k : IntKind) (t post : Bytes) (i : Int) (l : Lexer) (h : IntLit t i)
    (hk : k.signed = true) (hfit : InRange k i) (hp : numberEnds post) (hg : l.inp.good = true)
    (hr : l.inp.rest = t ++ post) :
    (l.scanInt k = throwStd ∨ ∃ l', l.scanInt k = .ok (i, l')) ∧
    (l.scanInt k = throwStd ↔ ∃ d u, t = 0x30 :: d :: u ∧ d ≠ 0x30) := by
  rw [scanInt_lit l k h hp (Or.inl hk) hg hr, if_pos (fits_iff.2 hfit)]
  have hz : zeroOk t = false ↔ ∃ d u, t = 0x30 :: d :: u ∧ d ≠ 0x30 := by
    unfold zeroOk
    split
    · rename_i c u
      have hd : isDigit c = true := by
        cases h with
        | pos hd => exact (dec_iff.mp hd).2.1 c (by simp)
      simp [hd]
    · rename_i hn
      simp only [Bool.true_eq_false, false_iff]
      rintro ⟨d, u, rfl, _⟩
      exact hn _ _ rfl
  constructor
  · split
    · left; rfl
    · right; exact ⟨_, rfl⟩
  · rw [← hz]
    split
    · simp [*]
    · simp [*]

/-- C10, the part that holds. A literal without superfluous zero is always accepted; an unsigned literal
with a leading zero followed by 1-9 is always rejected. Missing from C10: `00`, `-01` and the like are
accepted. -/
theorem C10_leading_zeros_partial (k : IntKind) (t post : Bytes) (i : Int) (l : Lexer) (h : IntLit t i)
    (hk : k.signed = true) (hfit : InRange k i) (hp : numberEnds post) (hg : l.inp.good = true)
    (hr : l.inp.rest = t ++ post) :
    (¬ litLeadingZero t → ∃ l', l.scanInt k = .ok (i, l')) ∧
    ((∃ d u, t = 0x30 :: d :: u ∧ d ≠ 0x30) → ∃ e, l.scanInt k = .throw e) := by
  obtain ⟨h1, h2⟩ := C10_which_zeros_rejected k t post i l h hk hfit hp hg hr
  constructor
  · intro hn
    rcases h1 with h1 | h1
    · exfalso
      obtain ⟨d, u, rfl, _⟩ := h2.mp h1
      exact hn (by simp [litLeadingZero, leadingZero])
    · exact h1
  · intro hd
    exact ⟨_, h2.mpr hd⟩

/-- C10 does not hold in general: `-01` is read as -1. -/
theorem C10_false : ¬ C10_full := by
  intro h
  have hl : IntLit b!"-01" (-1) :=
    .neg (.snoc (t := b!"0") (n := 0) (.one (.mk 0 (by decide))) (.mk 1 (by decide)))
  have := (h ⟨32, true⟩ b!"-01" [] (-1) (atText b!"-01") hl rfl (by decide) (by decide) rfl rfl).mp
    ⟨_, by
      rw [scanInt_lit (atText b!"-01") ⟨32, true⟩ (post := []) hl (by decide) (Or.inl rfl) rfl rfl,
        if_neg (by decide), if_pos (by decide)]⟩
  exact this (by simp [litLeadingZero, leadingZero])

/-- non-vacuity of the rejecting half: `07`. -/
example : (atText b!"07").scanInt ⟨32, true⟩ = throwStd := by decide

/-- C47. A number with a fraction or an exponent is never truncated into an integer destination: the
read throws, for every integer type and whatever the size of the integer part. -/
theorem C47_fraction_not_truncated (k : IntKind) (t rest : Bytes) (c : Byte) (i : Int) (l : Lexer) (h : IntLit t i)
    (hc : c = 0x2E ∨ c = 0x65 ∨ c = 0x45) (hg : l.inp.good = true)
    (hr : l.inp.rest = t ++ c :: rest) : l.scanInt k = throwStd :=
  scanInt_frac k t rest c i l h hc hg hr

example : (atText b!"-12.5,").scanInt ⟨32, true⟩ = throwStd := by decide

end Thors.Props
