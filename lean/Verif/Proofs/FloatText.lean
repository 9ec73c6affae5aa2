import Verif.Proofs.FloatRound
import Verif.Proofs.JsonInt
/-
Lemmas: the texts of decimal numbers, and reading them.
-/
namespace Thors
open Spec StrIn

theorem digitsVal_append (a b : Bytes) : digitsVal (a ++ b) = digitsVal a * 10 ^ b.length + digitsVal b := by
  suffices h : ∀ (b : Bytes) (x : Nat), b.foldl (fun acc d => acc * 10 + (d.toNat - 0x30)) x
      = x * 10 ^ b.length + b.foldl (fun acc d => acc * 10 + (d.toNat - 0x30)) 0 by
    unfold digitsVal
    rw [List.foldl_append, h]
  intro b
  induction b with
  | nil => intro x; simp
  | cons c cs ih =>
    intro x
    simp only [List.foldl_cons, List.length_cons, Nat.zero_mul, Nat.zero_add]
    rw [ih (x * 10 + (c.toNat - 0x30)), ih (c.toNat - 0x30), Nat.add_mul, Nat.pow_succ, Nat.mul_assoc, Nat.mul_comm 10, Nat.add_assoc]

theorem digit_digit {d : Nat} (h : d < 10) : Digit (digit d) d := .mk d h

theorem pad_length (w n : Nat) : (pad w n).length = w := by
  induction w generalizing n with
  | zero => rfl
  | succ w ih => simp [pad, ih]

theorem pad_digits (w n : Nat) : ∀ c ∈ pad w n, isDigit c = true := by
  induction w generalizing n with
  | zero => simp [pad]
  | succ w ih =>
    intro c hc
    simp only [pad, List.mem_append, List.mem_singleton] at hc
    rcases hc with hc | rfl
    · exact ih _ c hc
    · exact (digit_iff.1 (digit_digit (Nat.mod_lt n (by omega)))).1

theorem pad_val (w n : Nat) : digitsVal (pad w n) = n % 10 ^ w := by
  induction w generalizing n with
  | zero => simp [pad, digitsVal, Nat.mod_one]
  | succ w ih =>
    simp only [pad, digitsVal_snoc]
    rw [ih, (digit_iff.1 (digit_digit (Nat.mod_lt n (by omega : 10 > 0)))).2, Nat.pow_succ, Nat.mul_comm (10 ^ w) 10, Nat.mod_mul]
    omega

theorem pad_dec (w n : Nat) : Dec (pad (w + 1) n) (n % 10 ^ (w + 1)) :=
  dec_iff.2 ⟨by intro h; have := pad_length (w + 1) n; rw [h] at this; simp at this, pad_digits _ _, pad_val _ _⟩

theorem natText_noLeadingZero (n : Nat) : ¬ leadingZero (natText n) := by
  obtain ⟨c, cs, he, hz⟩ := natText_head n
  rw [he]
  unfold leadingZero
  split
  · rename_i heq
    simp only [List.cons.injEq] at heq
    have := (hz heq.1).2
    rw [this] at heq
    simp at heq
  · exact id

/-- The first character of a text is not a digit. -/
def NoDigit (t : Bytes) : Prop := ∀ c ps, t = c :: ps → isDigit c = false

theorem numberEnds_noDigit {post : Bytes} (h : numberEnds post) : NoDigit post := numberEnds_digit h

theorem expo_noDigit {ep post : Bytes} {e : Int} (h : ExpoVal ep e) (hp : numberEnds post) : NoDigit (ep ++ post) := by
  rcases h with ⟨rfl, _⟩ | ⟨c, s, ds, n, hc, _, rfl, _⟩
  · exact numberEnds_noDigit hp
  · intro a ps he
    simp only [List.cons_append, List.cons.injEq] at he
    rw [← he.1]
    rcases hc with rfl | rfl <;> decide

theorem expo_noPoint {ep post : Bytes} {e : Int} (h : ExpoVal ep e) (hp : numberEnds post) : ∀ ps, ep ++ post ≠ 0x2E :: ps := by
  intro ps he
  rcases h with ⟨rfl, _⟩ | ⟨c, s, ds, n, hc, _, rfl, _⟩
  · rw [List.nil_append] at he
    subst he
    exact hp.2.1 rfl
  · simp only [List.cons_append, List.cons.injEq] at he
    rcases hc with rfl | rfl
    · exact absurd he.1 (by decide)
    · exact absurd he.1 (by decide)

theorem frac_noDigit {fp ep post : Bytes} {len fr : Nat} {e : Int} (hf : FracVal fp len fr) (h : ExpoVal ep e) (hp : numberEnds post) :
    NoDigit (fp ++ (ep ++ post)) := by
  rcases hf with ⟨rfl, _, _⟩ | ⟨ds, rfl, _⟩
  · rw [List.nil_append]; exact expo_noDigit h hp
  · intro a ps he
    simp only [List.cons_append, List.cons.injEq] at he
    rw [← he.1]
    decide

theorem scanFrac_spec {fp ep post : Bytes} {len fr : Nat} {e : Int} (hf : FracVal fp len fr) (h : ExpoVal ep e) (hp : numberEnds post) :
    ∃ fs, scanFrac (fp ++ (ep ++ post)) = (fp.length, fs) ∧ fs.length = len ∧ digitsVal fs = fr := by
  rcases hf with ⟨rfl, rfl, rfl⟩ | ⟨ds, rfl, hd, hl⟩
  · refine ⟨[], ?_, rfl, rfl⟩
    rw [List.nil_append]
    have := expo_noPoint h hp
    generalize ep ++ post = t at this
    cases t with
    | nil => rfl
    | cons c cs =>
      simp only [scanFrac]
      rw [if_neg (by rintro rfl; exact this cs rfl)]
      rfl
  · have hd' := dec_iff.1 hd
    refine ⟨ds, ?_, hl, hd'.2.2⟩
    simp only [List.cons_append, scanFrac]
    rw [digitPrefix_append hd'.2.1 (expo_noDigit h hp)]
    simp; omega

theorem digit_noSign {c : Byte} (h : isDigit c = true) : c ≠ 0x2D ∧ c ≠ 0x2B := by
  constructor <;> (rintro rfl; simp [isDigit] at h)

theorem scanExpo_spec {ep post : Bytes} {e : Int} (h : ExpoVal ep e) (hp : numberEnds post) :
    scanExpo (ep ++ post) = (ep.length, e) := by
  rcases h with ⟨rfl, rfl⟩ | ⟨c, s, ds, n, hc, hd, rfl, hs⟩
  · cases post with
    | nil => rfl
    | cons a ps =>
      have h1 := hp.2.2
      rw [List.nil_append]
      simp only [scanExpo]
      rw [if_neg (by intro h; rcases h with h | h; exact h1.1 h; exact h1.2 h)]
      rfl
  · have hd' := dec_iff.1 hd
    have hdp := digitPrefix_append hd'.2.1 (numberEnds_noDigit hp)
    simp only [List.cons_append]
    simp only [scanExpo]
    rw [if_pos hc]
    rcases hs with ⟨rfl, rfl⟩ | ⟨rfl, rfl⟩ | ⟨rfl, rfl⟩
    · simp only [List.nil_append]
      obtain ⟨a, t, rfl⟩ : ∃ a t, ds = a :: t := by
        cases ds with
        | nil => exact absurd rfl hd'.1
        | cons a t => exact ⟨a, t, rfl⟩
      have ha := digit_noSign (hd'.2.1 a (by simp))
      rw [List.cons_append] at hdp ⊢
      simp only
      rw [if_neg ha.1, if_neg ha.2, hdp, if_neg (by simp), hd'.2.2]
      simp; omega
    · simp only [List.cons_append, List.nil_append]
      rw [if_neg (by decide), if_pos trivial, hdp, if_neg hd'.1, hd'.2.2]
      simp; omega
    · simp only [List.cons_append, List.nil_append]
      rw [if_pos trivial, hdp, if_neg hd'.1, hd'.2.2]
      simp; omega

theorem scanDecimal_spec {ip fp ep post : Bytes} {i len fr : Nat} {e : Int} (hi : Dec ip i) (hf : FracVal fp len fr) (h : ExpoVal ep e)
    (hp : numberEnds post) :
    scanDecimal (ip ++ (fp ++ (ep ++ post))) = some (ip.length + fp.length + ep.length, i * 10 ^ len + fr, e - len) := by
  have hi' := dec_iff.1 hi
  obtain ⟨fs, hfs, hl, hv⟩ := scanFrac_spec hf h hp
  unfold scanDecimal
  rw [digitPrefix_append hi'.2.1 (frac_noDigit hf h hp)]
  simp only [List.drop_left, hfs]
  have hdrop : List.drop (ip.length + fp.length) (ip ++ (fp ++ (ep ++ post))) = ep ++ post := by
    rw [← List.append_assoc, ← List.length_append, List.drop_left]
  rw [if_neg (by intro h; exact hi'.1 h.1), hdrop, scanExpo_spec h hp]
  simp only [digitsVal_append, hi'.2.2, hl, hv]

/-- Reading the text of a JSON number. -/
theorem fromCharsF_number (f : FKind) {t post : Bytes} {x : Decimal} (h : JsonNumber t x) (hp : numberEnds post) :
    fromCharsF f (t ++ post) = match x.toFlt f with | some v => .value t.length v | none => .outOfRange t.length := by
  obtain ⟨s, ip, fp, ep, i, len, fr, e, hs, hi, hz, hf, he, rfl, hn, hk⟩ := h
  have hx : x = ⟨x.neg, i * 10 ^ len + fr, e - len⟩ := by
    cases x; simp only at hn hk; simp [hn, hk]
  have hsc := scanDecimal_spec hi hf he hp
  have hi' := dec_iff.1 hi
  unfold SignText at hs
  cases hneg : x.neg with
  | true =>
    rw [hneg] at hs
    simp only [if_true] at hs
    subst hs
    simp only [List.cons_append, List.nil_append, fromCharsF, if_true, List.append_assoc]
    unfold fromCharsU
    rw [hsc]
    simp only
    rw [hneg] at hx
    rw [← hx]
    have hlen : 1 + (ip.length + fp.length + ep.length) = (0x2D :: (ip ++ (fp ++ ep))).length := by simp; omega
    rw [hlen]
    cases x.toFlt f <;> rfl
  | false =>
    rw [hneg] at hs
    simp only [Bool.false_eq_true, if_false] at hs
    subst hs
    simp only [List.nil_append, List.append_assoc]
    obtain ⟨a, r, rfl⟩ : ∃ a r, ip = a :: r := by
      cases ip with
      | nil => exact absurd rfl hi'.1
      | cons a t => exact ⟨a, t, rfl⟩
    have ha := digit_noSign (hi'.2.1 a (by simp))
    rw [List.cons_append] at hsc ⊢
    simp only [fromCharsF]
    rw [if_neg ha.1]
    unfold fromCharsU
    rw [hsc]
    simp only
    rw [hneg] at hx
    rw [← hx]
    have hlen : 0 + ((a :: r).length + fp.length + ep.length) = ((a :: r) ++ (fp ++ ep)).length := by simp; omega
    rw [hlen]
    cases x.toFlt f <;> rfl

theorem checkZero_number {l : StrIn} {t post : Bytes} {x : Decimal} (h : JsonNumber t x) (hp : numberEnds post) (hg : l.good = true)
    (hr : l.rest = t ++ post) : checkZero l = .ok l := by
  obtain ⟨s, ip, fp, ep, i, len, fr, e, hs, hi, hz, hf, he, rfl, hn, hk⟩ := h
  have hi' := dec_iff.1 hi
  have hne : l.rest ≠ [] := by rw [hr]; simp [hi'.1]
  rw [checkZero_eq hg hne, hr]
  split
  · rename_i c t' heq
    rw [if_neg]
    intro hc
    unfold SignText at hs
    cases hneg : x.neg with
    | true =>
      rw [hneg] at hs
      simp only [if_true] at hs
      subst hs
      simp at heq
    | false =>
      rw [hneg] at hs
      simp only [Bool.false_eq_true, if_false] at hs
      subst hs
      match ip, hi'.1, hz with
      | [a], _, _ =>
        simp only [List.nil_append, List.append_assoc, List.cons_append, List.cons.injEq] at heq
        have := frac_noDigit hf he hp c t' heq.2
        rw [this] at hc
        simp at hc
      | a :: b :: r, _, hz =>
        simp only [List.nil_append, List.append_assoc, List.cons_append, List.cons.injEq] at heq
        apply hz
        rw [heq.1]
        simp [leadingZero]
  · rfl

theorem number_length {t : Bytes} {x : Decimal} (h : JsonNumber t x) : t.length ≠ 0 := by
  obtain ⟨s, ip, fp, ep, i, len, fr, e, hs, hi, hz, hf, he, rfl, hn, hk⟩ := h
  have := List.length_pos_iff.2 (dec_iff.1 hi).1
  simp only [List.length_append]; omega

/-- The lexer on the text of a JSON number. -/
theorem scanFlt_number (l : Lexer) (f : FKind) {t post : Bytes} {x : Decimal} (h : JsonNumber t x) (hp : numberEnds post)
    (hg : l.inp.good = true) (hr : l.inp.rest = t ++ post) :
    l.scanFlt f = match x.toFlt f with
      | some v => .ok (v, { l with inp := { l.inp with pos := l.inp.pos + t.length, good := true } })
      | none => .ub := by
  have hne : l.inp.rest ≠ [] := by
    have := number_length h
    rw [hr]; intro h0; have := congrArg List.length h0; simp at this; simp [this] at *
  have hpos : l.inp.pos < l.inp.data.length := by
    cases hr' : l.inp.rest with
    | nil => exact absurd hr' hne
    | cons c t => exact rest_pos hr'
  have hadv := pos_adv hr (by omega)
  unfold Lexer.scanFlt readFltValue
  rw [checkZero_number h hp hg hr]
  simp only [Res.ok_bind, StrIn.readFlt]
  rw [if_neg (by omega)]
  have hr0 := hr
  unfold StrIn.rest at hr0
  rw [hr0, fromCharsF_number f h hp]
  have hl := number_length h
  cases x.toFlt f with
  | none => simp [hl]
  | some v =>
    simp only [Res.ok_bind, hadv, decide_true, hl, ne_eq, not_false_eq_true, Res.pure_eq]
    simp

/-- An integer literal is a number. -/
theorem int_number {t : Bytes} {i : Int} (h : IntLit t i) (hz : ¬ litLeadingZero t) : JsonNumber t ⟨t.head? = some 0x2D, i.natAbs, 0⟩ := by
  cases h with
  | pos h =>
    rename_i n
    have hd := dec_iff.1 h
    match t, hd.1, hd.2.1 with
    | c :: cs, _, hc =>
      have hc' := digit_noSign (hc c (by simp))
      have hz' : ¬ leadingZero (c :: cs) := by
        intro hl
        apply hz
        unfold litLeadingZero
        split
        · rename_i heq; exact absurd (List.cons.inj heq).1 hc'.1
        · exact hl
      exact ⟨[], c :: cs, [], [], n, 0, 0, 0, by simp [SignText, hc'.1], h, hz', .inl ⟨rfl, rfl, rfl⟩, .inl ⟨rfl, rfl⟩, by simp, by simp, rfl⟩
  | neg h =>
    rename_i t n
    exact ⟨[0x2D], t, [], [], n, 0, 0, 0, rfl, h, hz, .inl ⟨rfl, rfl, rfl⟩, .inl ⟨rfl, rfl⟩, by simp, by simp, rfl⟩

theorem scanSpecial_head {neg : Bool} {c : Byte} {t : Bytes} (hi : lower c ≠ 0x69) (hn : lower c ≠ 0x6E) : scanSpecial neg (c :: t) = none := by
  unfold scanSpecial
  rw [if_neg, if_neg, if_neg] <;> (intro h; simp only [List.take_succ_cons, List.map_cons] at h; have := (List.cons.inj h).1; contradiction)

/-- The lexer in front of something that is not a number. -/
theorem scanFlt_bad (f : FKind) {l : Lexer} {c : Byte} {t : Bytes} (hd : isDigit c = false) (hm : c ≠ 0x2D) (hpt : c ≠ 0x2E)
    (hsp : scanSpecial false (c :: t) = none) (hg : l.inp.good = true) (hr : l.inp.rest = c :: t) : l.scanFlt f = throwStd := by
  have hz : checkZero l.inp = .ok l.inp := by
    rw [checkZero_eq hg (by rw [hr]; simp), hr]
    split
    · rename_i heq
      rw [(List.cons.inj heq).1] at hd
      exact absurd hd (by decide)
    · rfl
  have hsd : scanDecimal (c :: t) = none := by
    unfold scanDecimal
    simp [digitPrefix, hd, scanFrac, hpt]
  have hf : fromCharsF f (c :: t) = .invalid := by
    simp only [fromCharsF]
    rw [if_neg hm]
    unfold fromCharsU
    rw [hsd, hsp]
  have hlt := rest_pos hr
  unfold StrIn.rest at hr
  unfold Lexer.scanFlt readFltValue
  rw [hz]
  simp only [Res.ok_bind, StrIn.readFlt]
  rw [if_neg (by omega), hr, hf]
  rfl

/-! Text of a value. -/

theorem signText_spec (neg : Bool) : SignText neg (signText neg) := rfl

/-- Six digits behind the point. -/
theorem fixed_number (neg : Bool) (N : Nat) :
    JsonNumber (signText neg ++ natText (N / 10 ^ 6) ++ [0x2E] ++ pad 6 (N % 10 ^ 6)) ⟨neg, N, -6⟩ := by
  refine ⟨signText neg, natText (N / 10 ^ 6), 0x2E :: pad 6 (N % 10 ^ 6), [], _, 6, _, 0, rfl, natText_dec _, natText_noLeadingZero _,
    .inr ⟨_, rfl, pad_dec 5 _, pad_length _ _⟩, .inl ⟨rfl, rfl⟩, by simp, ?_, rfl⟩
  show N = N / 10 ^ 6 * 10 ^ 6 + N % 10 ^ 6 % 10 ^ 6
  rw [Nat.mod_mod]; exact (div_mod _ _).symm

end Thors
