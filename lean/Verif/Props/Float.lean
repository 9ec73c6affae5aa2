import Verif.Proofs.FloatValue
import Verif.Props.JsonInt
/-
Properties C62 to C65: floating point values in JSON.
-/
namespace Thors.Props
open Thors Spec StrIn

/-- The full statement of C62: a JSON number is stored as the nearest value of the type, or an error is reported. -/
def C62_full : Prop :=
  ∀ (f : FKind) (t post : Bytes) (x : Decimal) (l : Lexer), f ∈ [f32, f64, f80] → JsonNumber t x → numberEnds post →
    l.inp.good = true → l.inp.rest = t ++ post →
    (∃ m E l', l.scanFlt f = .ok (.fin x.neg m E, l') ∧ Nearest f x m E ∧ E ≤ f.emax ∧ l'.inp.rest = post) ∨ ∃ e, l.scanFlt f = .throw e

theorem prec_pos {f : FKind} (h : f ∈ [f32, f64, f80]) : 21 ≤ f.prec ∧ 20 ≤ f.q := by
  simp only [List.mem_cons, List.not_mem_nil, or_false] at h
  rcases h with rfl | rfl | rfl <;> decide

/-- C62, the part that holds. Every JSON number that is zero or between the smallest and the largest positive value of
the type in magnitude is stored as the nearest value of the type, and the reader stops right behind it. Missing from C62:
numbers outside that range are not reported, the destination is left with an indeterminate value (`ub` in the
model). -/
theorem C62_number_nearest_partial (f : FKind) (t post : Bytes) (x : Decimal) (l : Lexer) (hf : f ∈ [f32, f64, f80]) (h : JsonNumber t x)
    (hp : numberEnds post) (hg : l.inp.good = true) (hr : l.inp.rest = t ++ post)
    (hmax : decNum f x ≤ (2 ^ f.prec - 1) * 2 ^ f.emax * decDen x) (hmin : x.n = 0 ∨ decDen x ≤ decNum f x) :
    ∃ m E l', l.scanFlt f = .ok (.fin x.neg m E, l') ∧ Nearest f x m E ∧ E ≤ f.emax ∧ l'.inp.rest = post := by
  have hp0 : 0 < f.prec := by have := prec_pos hf; omega
  obtain ⟨v, hv⟩ := toFlt_range hp0 hmax hmin
  obtain ⟨rfl, h2, _⟩ := toFlt_some hv
  have hs := scanFlt_number l f h hp hg hr
  rw [hv] at hs
  exact ⟨_, _, _, hs, round_nearest f hp0 x, h2, rest_adv hr true⟩

/-- C62: whatever the number, a defined result is the nearest value. -/
theorem C62_value_nearest_partial (f : FKind) (t post : Bytes) (x : Decimal) (l l' : Lexer) (v : Flt) (hf : f ∈ [f32, f64, f80])
    (h : JsonNumber t x) (hp : numberEnds post) (hg : l.inp.good = true) (hr : l.inp.rest = t ++ post) (hok : l.scanFlt f = .ok (v, l')) :
    ∃ m E, v = .fin x.neg m E ∧ Nearest f x m E ∧ E ≤ f.emax ∧ l'.inp.rest = post := by
  have hp0 : 0 < f.prec := by have := prec_pos hf; omega
  rw [scanFlt_number l f h hp hg hr] at hok
  cases hv : x.toFlt f with
  | none => rw [hv] at hok; cases hok
  | some w =>
    rw [hv] at hok
    cases hok
    obtain ⟨rfl, h2, _⟩ := toFlt_some hv
    exact ⟨_, _, rfl, round_nearest f hp0 x, h2, rest_adv hr true⟩

/-- The number -12.5e3 (used in the non-vacuity examples). -/
theorem sampleNumber : JsonNumber b!"-12.5e3" ⟨true, 125, 2⟩ :=
  ⟨b!"-", b!"12", b!".5", b!"e3", 12, 1, 5, 3, rfl, .snoc (t := b!"1") (n := 1) (.one (.mk 1 (by decide))) (.mk 2 (by decide)),
    by simp [leadingZero], .inr ⟨b!"5", rfl, .one (.mk 5 (by decide)), rfl⟩,
    .inr ⟨0x65, [], b!"3", 3, .inl rfl, .one (.mk 3 (by decide)), rfl, .inl ⟨rfl, rfl⟩⟩, rfl, rfl, rfl⟩

/-- non-vacuity: -12.5e3 is in the range of `double`, and is read as -12500 = -(12500 * 2^39) * 2^(-39). -/
example : f64 ∈ [f32, f64, f80] ∧ JsonNumber b!"-12.5e3" ⟨true, 125, 2⟩ ∧ numberEnds b!"]" ∧
    decNum f64 ⟨true, 125, 2⟩ ≤ (2 ^ f64.prec - 1) * 2 ^ f64.emax * decDen ⟨true, 125, 2⟩ ∧
    decDen ⟨true, 125, 2⟩ ≤ decNum f64 ⟨true, 125, 2⟩ ∧ Decimal.toFlt f64 ⟨true, 125, 2⟩ = some (.fin true (12500 * 2 ^ 39) 1035) :=
  ⟨by decide, sampleNumber, by decide, by decide +kernel, by decide +kernel, by decide +kernel⟩

/-- The number 1e400. -/
theorem hugeNumber : JsonNumber b!"1e400" ⟨false, 1, 400⟩ :=
  ⟨[], b!"1", [], b!"e400", 1, 0, 0, 400, rfl, .one (.mk 1 (by decide)), by simp [leadingZero], .inl ⟨rfl, rfl, rfl⟩,
    .inr ⟨0x65, [], b!"400", 400, .inl rfl,
      .snoc (t := b!"40") (n := 40) (.snoc (t := b!"4") (n := 4) (.one (.mk 4 (by decide))) (.mk 0 (by decide))) (.mk 0 (by decide)),
      rfl, .inl ⟨rfl, rfl⟩⟩, rfl, rfl, rfl⟩

/-- C62 does not hold in general: 1e400 into a `double`. -/
theorem C62_false : ¬ C62_full := by
  intro h
  have hub : (atText b!"1e400").scanFlt f64 = .ub := by
    rw [scanFlt_number (atText b!"1e400") f64 (post := []) hugeNumber trivial rfl rfl]
    have : Decimal.toFlt f64 ⟨false, 1, 400⟩ = none := by decide +kernel
    rw [this]
  have := h f64 b!"1e400" [] _ (atText b!"1e400") (by decide) hugeNumber trivial rfl rfl
  rw [hub] at this
  rcases this with ⟨_, _, _, h, _⟩ | ⟨_, h⟩ <;> cases h

/-- A finite value. -/
def Flt.Finite : Flt → Prop
  | .fin _ _ _ => True
  | _ => False

/-- The full statement of C63: what is printed for a value of a floating point type, into a string or on a stream, is a
JSON number. -/
def C63_full : Prop :=
  ∀ (f : FKind) (v : Flt), f ∈ [f32, f64, f80] → IsFlt f v → (∃ x, JsonNumber (stringText f v) x) ∧ ∃ x, JsonNumber (streamText f v) x

/-- C63, the part that holds: the text of a finite value is a JSON number with the sign of the value, except that of a
negative zero in a string. Missing from C63: negative zeros in strings, infinities and NaN. -/
theorem C63_text_is_number_partial (f : FKind) (neg : Bool) (m E : Nat) (_hf : f ∈ [f32, f64, f80]) (_hv : IsFlt f (.fin neg m E)) :
    (m ≠ 0 ∨ neg = false → ∃ x, JsonNumber (stringText f (.fin neg m E)) x ∧ x.neg = neg) ∧
    ∃ x, JsonNumber (streamText f (.fin neg m E)) x ∧ x.neg = neg := by
  by_cases hm : m = 0
  · subst hm
    constructor
    · intro h
      have hn : neg = false := by simpa using h
      subst hn
      exact ⟨_, zero_number false, rfl⟩
    · cases neg
      · exact ⟨_, zero_number false, rfl⟩
      · exact ⟨_, zero_number true, rfl⟩
  · rw [stringText_fixed f neg hm, streamText_general f neg hm]
    constructor
    · intro _
      exact ⟨_, fixed6_number f neg m E, rfl⟩
    · obtain ⟨y, h1, h2⟩ := general6_number f neg hm (E := E)
      exact ⟨y, h1, h2.1⟩

/-- non-vacuity: the float -1. -/
example : f32 ∈ [f32, f64, f80] ∧ IsFlt f32 (.fin true (2 ^ 23) 126) := by decide +kernel

/-- Every JSON number ends with a digit. -/
theorem number_last {t : Bytes} {x : Decimal} (h : JsonNumber t x) : ∃ t' c, t = t' ++ [c] ∧ isDigit c = true := by
  obtain ⟨s, ip, fp, ep, i, len, fr, e, hs, hi, hz, hf, he, rfl, hn, hk⟩ := h
  have last : ∀ {ds : Bytes} {n : Nat}, Dec ds n → ∃ t' c, ds = t' ++ [c] ∧ isDigit c = true := by
    intro ds n hd
    cases hd with
    | one h => exact ⟨[], _, rfl, (digit_iff.1 h).1⟩
    | snoc _ h => exact ⟨_, _, rfl, (digit_iff.1 h).1⟩
  rcases he with ⟨rfl, _⟩ | ⟨c, sg, ds, n, _, hd, rfl, _⟩
  · rcases hf with ⟨rfl, _, _⟩ | ⟨ds, rfl, hd, _⟩
    · obtain ⟨t', c, rfl, hc⟩ := last hi
      exact ⟨s ++ t', c, by simp, hc⟩
    · obtain ⟨t', c, rfl, hc⟩ := last hd
      exact ⟨s ++ (ip ++ (0x2E :: t')), c, by simp, hc⟩
  · obtain ⟨t', c', rfl, hc⟩ := last hd
    exact ⟨s ++ (ip ++ (fp ++ (c :: (sg ++ t')))), c', by simp, hc⟩

/-- C63 does not hold in general: a negative zero in a string is printed as `-0.`. -/
theorem C63_false : ¬ C63_full := by
  intro h
  obtain ⟨x, hx⟩ := (h f64 (.fin true 0 0) (by decide) (by decide +kernel)).1
  obtain ⟨t', c, ht, hc⟩ := number_last hx
  have hc' : c = 0x2E := by
    have := congrArg List.getLast? ht
    simpa [stringText] using this.symm
  subst hc'
  exact absurd hc (by decide)

/-- C63 also fails for infinities, on strings and on streams. -/
theorem C63_infinity_false (f : FKind) (neg : Bool) :
    (¬ ∃ x, JsonNumber (stringText f (.inf neg)) x) ∧ ¬ ∃ x, JsonNumber (streamText f (.inf neg)) x := by
  constructor <;>
  · rintro ⟨x, hx⟩
    obtain ⟨t', c, ht, hc⟩ := number_last hx
    have hc' : c = 0x66 := by
      have := congrArg List.getLast? ht
      cases neg <;> simpa [stringText, streamText, fixed6, general6, signText] using this.symm
    subst hc'
    exact absurd hc (by decide)

/-- The full statement of C64: a finite value printed into a string is read back unchanged. -/
def C64_full : Prop :=
  ∀ (f : FKind) (v : Flt) (post : Bytes) (l : Lexer), f ∈ [f32, f64, f80] → IsFlt f v → Flt.Finite v → numberEnds post → l.inp.good = true →
    l.inp.rest = stringText f v ++ post → ∃ l', l.scanFlt f = .ok (v, l') ∧ l'.inp.rest = post

theorem scan_value {f : FKind} {v : Flt} {t post : Bytes} {x : Decimal} {l : Lexer} (h : JsonNumber t x) (hx : x.toFlt f = some v)
    (hp : numberEnds post) (hg : l.inp.good = true) (hr : l.inp.rest = t ++ post) : ∃ l', l.scanFlt f = .ok (v, l') ∧ l'.inp.rest = post := by
  have hs := scanFlt_number l f h hp hg hr
  rw [hx] at hs
  exact ⟨_, hs, rest_adv hr true⟩

/-- C64, the part that holds, first half: a value that is a whole number of millionths (every integer is) comes back
unchanged. Missing from C64: values with more than six places behind the point lose the rest. -/
theorem C64_millionths_partial (f : FKind) (neg : Bool) (m E : Nat) (post : Bytes) (l : Lexer) (hf : f ∈ [f32, f64, f80])
    (hv : IsFlt f (.fin neg m E)) (hm : m ≠ 0) (hd : ∃ N, m * 2 ^ E * 10 ^ 6 = N * 2 ^ f.q) (hp : numberEnds post) (hg : l.inp.good = true)
    (hr : l.inp.rest = stringText f (.fin neg m E) ++ post) : ∃ l', l.scanFlt f = .ok (.fin neg m E, l') ∧ l'.inp.rest = post := by
  have hp0 : 0 < f.prec := by have := prec_pos hf; omega
  rw [stringText_fixed f neg hm] at hr
  obtain ⟨N, hN⟩ := hd
  exact scan_value (fixed6_number f neg m E) (micro_exact hp0 hv ⟨N, by rw [hN, Nat.mul_comm]⟩) hp hg hr

/-- non-vacuity: -2.5 = -(5 * 2^50) * 2^(-51). -/
example : IsFlt f64 (.fin true (5 * 2 ^ 50) 1023) ∧ 5 * 2 ^ 50 * 2 ^ 1023 * 10 ^ 6 = 2500000 * 2 ^ f64.q := by decide +kernel

/-- C64, second half: the value of every decimal number with at most six places behind the point comes back unchanged, if
the number is below 2^(prec-20): 8589934592 for `double`, 16 for `float`. So does the text: it denotes the decimal
number itself. -/
theorem C64_decimals_partial (f : FKind) (neg : Bool) (N : Nat) (v : Flt) (post : Bytes) (l : Lexer) (hf : f ∈ [f32, f64, f80])
    (hN0 : N ≠ 0) (hN : N < 2 ^ (f.prec - 20) * 10 ^ 6) (hv : Decimal.toFlt f ⟨neg, N, -6⟩ = some v) :
    JsonNumber (stringText f v) ⟨neg, N, -6⟩ ∧
    (numberEnds post → l.inp.good = true → l.inp.rest = stringText f v ++ post → ∃ l', l.scanFlt f = .ok (v, l') ∧ l'.inp.rest = post) := by
  obtain ⟨hp, hq⟩ := prec_pos hf
  have h := fixed6_short (by omega) hq hN neg hv
  have hst : stringText f v = fixed6 f v := by
    obtain ⟨rfl, _, h0⟩ := toFlt_some hv
    refine stringText_fixed f neg ?_
    intro hm
    exact hN0 (h0 hm)
  rw [hst]
  exact ⟨h, fun hp hg hr => scan_value h hv hp hg hr⟩

/-- non-vacuity: 0.1 as a `double`, which is not a whole number of millionths. -/
example : (100000 : Nat) < 2 ^ (f64.prec - 20) * 10 ^ 6 ∧ Decimal.toFlt f64 ⟨false, 100000, -6⟩ = some (.fin false 7205759403792794 1018) ∧
    7205759403792794 * 2 ^ 1018 * 10 ^ 6 % 2 ^ f64.q ≠ 0 := by decide +kernel

/-- C64, what is left of any finite value: the text in the string denotes a decimal number not more than half a millionth
away (in multiples of 2^-q). -/
theorem C64_error_partial (f : FKind) (neg : Bool) (m E : Nat) (hm : m ≠ 0) :
    ∃ N, JsonNumber (stringText f (.fin neg m E)) ⟨neg, N, -6⟩ ∧ 2 * dist (N * 2 ^ f.q) (m * 2 ^ E * 10 ^ 6) ≤ 2 ^ f.q := by
  rw [stringText_fixed f neg hm]
  exact ⟨_, fixed6_number f neg m E, micro_error f m E⟩

/-- C64 does not hold in general: 2^-30 is printed as 0.000000. -/
theorem C64_false : ¬ C64_full := by
  intro h
  have hn := fixed6_number f64 false (2 ^ 52) 992
  rw [← stringText_fixed f64 false (by decide)] at hn
  have hz : micro f64 (2 ^ 52) 992 = 0 := by decide +kernel
  rw [hz] at hn
  obtain ⟨l', h1, _⟩ := h f64 (.fin false (2 ^ 52) 992) [] (atText (stringText f64 (.fin false (2 ^ 52) 992))) (by decide) (by decide +kernel) trivial
    trivial rfl (by simp [atText, StrIn.ofBytes, StrIn.rest])
  rw [scanFlt_number _ f64 (post := []) hn trivial rfl (by simp [atText, StrIn.ofBytes, StrIn.rest])] at h1
  have ht : Decimal.toFlt f64 ⟨false, 0, -6⟩ = some (.fin false 0 0) := by decide +kernel
  rw [ht] at h1
  cases h1

/-- The full statement of C65: a finite value printed on a stream is read back unchanged. -/
def C65_full : Prop :=
  ∀ (f : FKind) (v : Flt) (post : Bytes) (l : Lexer), f ∈ [f32, f64, f80] → IsFlt f v → Flt.Finite v → numberEnds post → l.inp.good = true →
    l.inp.rest = streamText f v ++ post → ∃ l', l.scanFlt f = .ok (v, l') ∧ l'.inp.rest = post

/-- C65, the part that holds: the value of every decimal number with at most six significant digits (written with exactly
six: `D * 10^(X-5)`) that is not below the smallest normal value comes back unchanged, and the text denotes the decimal
number itself. Missing from C65: values with more significant digits lose the rest. -/
theorem C65_decimals_partial (f : FKind) (neg : Bool) (D : Nat) (X : Int) (v : Flt) (post : Bytes) (l : Lexer) (hf : f ∈ [f32, f64, f80])
    (hD1 : 10 ^ 5 ≤ D) (hD2 : D < 10 ^ 6) (hnorm : 2 ^ (f.prec - 1) * 10 ^ (5 - X).toNat ≤ D * 10 ^ (X - 5).toNat * 2 ^ f.q)
    (hv : Decimal.toFlt f ⟨neg, D, X - 5⟩ = some v) :
    (∃ y, JsonNumber (streamText f v) y ∧ SameNumber y ⟨neg, D, X - 5⟩) ∧
    (numberEnds post → l.inp.good = true → l.inp.rest = streamText f v ++ post → ∃ l', l.scanFlt f = .ok (v, l') ∧ l'.inp.rest = post) := by
  obtain ⟨hp, hq⟩ := prec_pos hf
  obtain ⟨y, h1, h2⟩ := general6_short hp hD1 hD2 neg hnorm hv
  have hst : streamText f v = general6 f v := by
    obtain ⟨rfl, _, h0⟩ := toFlt_some hv
    refine streamText_general f neg ?_
    intro hm
    have := h0 hm
    simp only at this
    omega
  rw [hst]
  exact ⟨⟨y, h1, h2⟩, fun hp hg hr => scan_value h1 ((toFlt_same f h2).trans hv) hp hg hr⟩

/-- non-vacuity: 1.5e-7 and 123456e294. -/
example : 2 ^ (f64.prec - 1) * 10 ^ (5 - (-7) : Int).toNat ≤ 150000 * 10 ^ (-7 - 5 : Int).toNat * 2 ^ f64.q ∧
    (Decimal.toFlt f64 ⟨true, 150000, -7 - 5⟩).isSome ∧ 2 ^ (f64.prec - 1) * 10 ^ (5 - 299 : Int).toNat ≤ 123456 * 10 ^ (299 - 5 : Int).toNat * 2 ^ f64.q ∧
    (Decimal.toFlt f64 ⟨true, 123456, 299 - 5⟩).isSome := by decide +kernel

/-- C65 does not hold in general: 16777217 is printed as 1.67772e+07. -/
theorem C65_false : ¬ C65_full := by
  intro h
  have hm : (16777217 * 2 ^ 28 : Nat) ≠ 0 := by decide
  obtain ⟨y, hn, hs⟩ := general6_number f64 false hm (E := 1046)
  have hx : expo10 (16777217 * 2 ^ 28 * 2 ^ 1046) (2 ^ f64.q) = 7 :=
    expo10_unique (by decide +kernel) (by decide +kernel) (by unfold Ge10; decide +kernel) (by unfold Ge10; decide +kernel)
  have hd : digits6 (16777217 * 2 ^ 28 * 2 ^ 1046) (2 ^ f64.q) = (167772, 7) := by
    unfold digits6
    rw [hx]
    decide +kernel
  rw [hd] at hs
  rw [← streamText_general f64 false hm] at hn
  obtain ⟨l', h1, _⟩ := h f64 (.fin false (16777217 * 2 ^ 28) 1046) [] (atText (streamText f64 (.fin false (16777217 * 2 ^ 28) 1046))) (by decide)
    (by decide +kernel) trivial trivial rfl (by simp [atText, StrIn.ofBytes, StrIn.rest])
  rw [scanFlt_number _ f64 (post := []) hn trivial rfl (by simp [atText, StrIn.ofBytes, StrIn.rest]), toFlt_same f64 hs] at h1
  have ht : Decimal.toFlt f64 ⟨false, 167772, 7 - 5⟩ = some (.fin false (16777200 * 2 ^ 29) 1045) := by decide +kernel
  simp only at h1
  rw [ht] at h1
  cases h1

end Thors.Props
