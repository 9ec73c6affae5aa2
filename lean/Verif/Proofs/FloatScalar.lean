import Verif.Proofs.FloatValue
import Verif.Spec.JsonText
/-
Floating point values as scalars of JSON: the texts denote numbers close to the values.
-/
namespace Thors
open Spec StrIn

theorem dist_mul_right (a b c : Nat) : dist (a * c) (b * c) = dist a b * c := by
  unfold dist
  rw [← Nat.sub_mul, ← Nat.sub_mul, Nat.add_mul]

theorem decDen_pos (x : Decimal) : 0 < decDen x := pow_pos10 _

theorem same_cross {f : FKind} {y z : Decimal} (h : SameNumber y z) : decNum f y * decDen z = decNum f z * decDen y := by
  unfold decNum decDen
  rw [Nat.mul_right_comm _ (2 ^ f.q), h.2, Nat.mul_right_comm _ (2 ^ f.q)]

theorem close_scale {A B d n n' d' : Nat} {c : Nat} (hd : 0 < d) (h : n' * d = n * d')
    (hc : c * dist (A * d) n ≤ B * d) : c * dist (A * d') n' ≤ B * d' := by
  refine Nat.le_of_mul_le_mul_right ?_ hd
  rw [Nat.mul_assoc, ← dist_mul_right, h, Nat.mul_right_comm, dist_mul_right, ← Nat.mul_assoc, Nat.mul_right_comm B]
  exact Nat.mul_le_mul_right _ hc

theorem close_same {f : FKind} {v : Flt} {y z : Decimal} (h : SameNumber y z) (hz : Close f v z) : Close f v y := by
  cases v with
  | fin neg m E =>
    obtain ⟨h1, h2⟩ := hz
    refine ⟨h.1.trans h1, ?_⟩
    rcases h2 with h2 | h2
    · exact .inl (close_scale (decDen_pos z) (same_cross h) h2)
    · exact .inr (close_scale (decDen_pos z) (same_cross h) h2)
  | inf _ => exact hz.elim
  | nan _ => exact hz.elim

theorem close_fixed (f : FKind) (neg : Bool) (m E : Nat) : Close f (.fin neg m E) ⟨neg, micro f m E, -6⟩ := by
  refine ⟨rfl, .inl ?_⟩
  have h := micro_error f m E
  unfold decNum decDen
  simp only [show (-6 : Int).toNat = 0 from rfl, show (-(-6) : Int).toNat = 6 from rfl, Nat.pow_zero, Nat.mul_one]
  unfold dist at h ⊢
  omega

theorem close_zero (f : FKind) (neg : Bool) (E : Nat) : Close f (.fin neg 0 E) ⟨neg, 0, -1⟩ := by
  refine ⟨rfl, .inl ?_⟩
  simp [decNum, decDen, dist]

/-- Six significant digits. -/
theorem close_digits (f : FKind) (neg : Bool) {m E : Nat} (hm : m ≠ 0) :
    Close f (.fin neg m E) ⟨neg, (digits6 (m * 2 ^ E) (2 ^ f.q)).1, (digits6 (m * 2 ^ E) (2 ^ f.q)).2 - 5⟩ := by
  have hn : 0 < m * 2 ^ E := Nat.mul_pos (by omega) (pow_pos2 _)
  have hd : 0 < 2 ^ f.q := pow_pos2 _
  obtain ⟨g1, -⟩ := expo10_ge hn hd
  have key : Close f (.fin neg m E) ⟨neg, rnd (m * 2 ^ E * 10 ^ (5 - expo10 (m * 2 ^ E) (2 ^ f.q)).toNat)
      (2 ^ f.q * 10 ^ (expo10 (m * 2 ^ E) (2 ^ f.q) - 5).toNat), expo10 (m * 2 ^ E) (2 ^ f.q) - 5⟩ := by
    generalize expo10 (m * 2 ^ E) (2 ^ f.q) = X at g1
    have h1 := (ge10_shift (m * 2 ^ E) (2 ^ f.q) (X - 5) 5).1 (by rw [show X - 5 + ((5 : Nat) : Int) = X by omega]; exact g1)
    rw [show -(X - 5) = 5 - X by omega, Nat.mul_right_comm, Nat.mul_comm (2 ^ f.q * 10 ^ (X - 5).toNat)] at h1
    have hW : 0 < 2 ^ f.q * 10 ^ (X - 5).toNat := Nat.mul_pos hd (pow_pos10 _)
    obtain ⟨b1, b2⟩ := rnd_bound (n := m * 2 ^ E * 10 ^ (5 - X).toNat) hW
    refine ⟨rfl, .inr ?_⟩
    unfold decNum decDen
    simp only [show -(X - 5) = 5 - X by omega]
    rw [Nat.mul_assoc (rnd _ _), Nat.mul_comm (10 ^ (X - 5).toNat) (2 ^ f.q)]
    generalize rnd (m * 2 ^ E * 10 ^ (5 - X).toNat) (2 ^ f.q * 10 ^ (X - 5).toNat) * (2 ^ f.q * 10 ^ (X - 5).toNat) = R at b1 b2
    generalize 2 ^ f.q * 10 ^ (X - 5).toNat = W at *
    generalize m * 2 ^ E * 10 ^ (5 - X).toNat = A at *
    unfold dist
    omega
  unfold digits6
  simp only
  split
  · rename_i h6
    rw [h6] at key
    refine close_same ?_ key
    have := same_scale neg (10 ^ 5) 1 (expo10 (m * 2 ^ E) (2 ^ f.q) + 1 - 5)
    rwa [show expo10 (m * 2 ^ E) (2 ^ f.q) + 1 - 5 - ((1 : Nat) : Int) = expo10 (m * 2 ^ E) (2 ^ f.q) - 5 by omega] at this
  · exact key

/-- The text of the value is a JSON number close to the value. -/
def FltText (ft : FKind → Flt → Bytes) (f : FKind) (x : Flt) : Prop := ∃ y, JsonNumber (ft f x) y ∧ Close f x y

theorem streamText_close (f : FKind) (neg : Bool) (m E : Nat) : FltText streamText f (.fin neg m E) := by
  by_cases hm : m = 0
  · subst hm
    cases neg
    · exact ⟨_, zero_number false, close_zero f false E⟩
    · exact ⟨_, zero_number true, close_zero f true E⟩
  · unfold FltText
    rw [streamText_general f neg hm]
    obtain ⟨y, h1, h2⟩ := general6_number f neg hm (E := E)
    exact ⟨y, h1, close_same h2 (close_digits f neg hm)⟩

theorem stringText_close (f : FKind) (neg : Bool) (m E : Nat) (h : m ≠ 0 ∨ neg = false) : FltText stringText f (.fin neg m E) := by
  by_cases hm : m = 0
  · subst hm
    have hn : neg = false := by simpa using h
    subst hn
    exact ⟨_, zero_number false, close_zero f false E⟩
  · unfold FltText
    rw [stringText_fixed f neg hm]
    exact ⟨_, fixed6_number f neg m E, close_fixed f neg m E⟩

/-! ### The scalar of a text -/

/-- The number a text is. -/
def decOf (t : Bytes) : Decimal :=
  match scanDecimal (if t.head? = some 0x2D then t.drop 1 else t) with
  | some (_, n, k) => ⟨t.head? = some 0x2D, n, k⟩
  | none => ⟨false, 0, 0⟩

/-- Is there a point or an exponent? -/
def hasFrac (t : Bytes) : Bool := t.any fun c => c = 0x2E ∨ c = 0x65 ∨ c = 0x45

/-- The scalar of a text that is a number. -/
def fltScalar (t : Bytes) : JScalar :=
  if hasFrac t then .frac t (decOf t) else .int t (if t.head? = some 0x2D then -((decOf t).n : Int) else (decOf t).n)

theorem number_head {t : Bytes} {y : Decimal} (h : JsonNumber t y) : decide (t.head? = some 0x2D) = y.neg := by
  obtain ⟨s, ip, fp, ep, i, len, fr, e, hs, hi, hz, hf, he, rfl, hn, hk⟩ := h
  obtain ⟨h1, h2, -⟩ := dec_iff.1 hi
  unfold SignText at hs
  cases hneg : y.neg with
  | true => rw [hneg] at hs; simp only [if_true] at hs; subst hs; simp
  | false =>
    rw [hneg] at hs
    simp only [Bool.false_eq_true, if_false] at hs
    subst hs
    cases ip with
    | nil => exact absurd rfl h1
    | cons a as => simp [(digit_noSign (h2 a (by simp))).1]

theorem decOf_number {t : Bytes} {y : Decimal} (h : JsonNumber t y) : decOf t = y := by
  have hh := number_head h
  obtain ⟨s, ip, fp, ep, i, len, fr, e, hs, hi, hz, hf, he, rfl, hn, hk⟩ := h
  have hx : y = ⟨y.neg, i * 10 ^ len + fr, e - len⟩ := by
    cases y; simp only at hn hk; simp [hn, hk]
  have hsc := scanDecimal_spec hi hf he (post := []) trivial
  rw [List.append_nil] at hsc
  unfold decOf
  unfold SignText at hs
  cases hneg : y.neg with
  | true =>
    rw [hneg] at hs hh hx
    simp only [if_true] at hs
    subst hs
    rw [if_pos (by simpa using hh)]
    simp only [List.cons_append, List.nil_append, List.drop_succ_cons, List.drop_zero, hsc]
    rw [hx]
    simp
  | false =>
    rw [hneg] at hs hh hx
    simp only [Bool.false_eq_true, if_false] at hs
    subst hs
    rw [if_neg (by simpa using hh)]
    simp only [List.nil_append, hsc]
    rw [hx]
    simpa using hh

theorem dec_noFrac {ds : Bytes} {n : Nat} (h : Dec ds n) : hasFrac ds = false := by
  obtain ⟨-, h2, -⟩ := dec_iff.1 h
  unfold hasFrac
  rw [List.any_eq_false]
  intro c hc
  have := h2 c hc
  simp only [decide_eq_true_eq]
  rintro (rfl | rfl | rfl) <;> simp [isDigit] at this

theorem frac_of {fp : Bytes} {len fr : Nat} (h : FracVal fp len fr) : Frac fp := by
  rcases h with ⟨rfl, -, -⟩ | ⟨ds, rfl, hd, -⟩
  · exact .inl rfl
  · exact .inr ⟨ds, ⟨_, hd⟩, rfl⟩

theorem expo_of {ep : Bytes} {e : Int} (h : ExpoVal ep e) : Expo ep := by
  rcases h with ⟨rfl, -⟩ | ⟨c, s, ds, n, hc, hd, rfl, hs⟩
  · exact .inl rfl
  · refine .inr ⟨c, s, ds, hc, ?_, ⟨n, hd⟩, rfl⟩
    rcases hs with ⟨h, -⟩ | ⟨h, -⟩ | ⟨h, -⟩
    · exact .inl h
    · exact .inr (.inl h)
    · exact .inr (.inr h)

theorem sign_lit {neg : Bool} {s ip : Bytes} {i : Nat} (hs : SignText neg s) (hi : Dec ip i) (hz : ¬ leadingZero ip) :
    IntLit (s ++ ip) (if neg then -(i : Int) else i) ∧ ¬ litLeadingZero (s ++ ip) := by
  obtain ⟨h1, h2, -⟩ := dec_iff.1 hi
  unfold SignText at hs
  cases neg with
  | true =>
    simp only [if_true] at hs
    subst hs
    exact ⟨.neg hi, hz⟩
  | false =>
    simp only [Bool.false_eq_true, if_false] at hs
    subst hs
    refine ⟨.pos hi, ?_⟩
    cases ip with
    | nil => exact absurd rfl h1
    | cons a as =>
      intro hl
      apply hz
      rw [List.nil_append] at hl
      unfold litLeadingZero at hl
      split at hl
      · rename_i heq; exact absurd (List.cons.inj heq).1 (digit_noSign (h2 a (by simp))).1
      · exact hl

theorem fltScalar_spec (pr : Nat → Nat → Bytes) {t : Bytes} {y : Decimal} (h : JsonNumber t y) :
    ScalarText pr (fltScalar t) t ∧ (fltScalar t).number = some y ∧ fltScalar t ≠ .null := by
  have hd := decOf_number h
  have hh := number_head h
  have hy := h
  obtain ⟨s, ip, fp, ep, i, len, fr, e, hs, hi, hz, hf, he, ht, hn, hk⟩ := h
  obtain ⟨l1, l2⟩ := sign_lit hs hi hz
  have hsf : hasFrac (s ++ ip) = false := by
    have h1 := dec_noFrac hi
    unfold SignText at hs
    subst hs
    unfold hasFrac at h1 ⊢
    cases y.neg <;> simp [h1] <;> simpa using h1
  by_cases hfe : fp ++ ep = []
  · have hnf : hasFrac t = false := by rw [ht, hfe, List.append_nil]; exact hsf
    obtain ⟨rfl, rfl⟩ := List.append_eq_nil_iff.1 hfe
    have hlf : len = 0 ∧ fr = 0 := by
      rcases hf with ⟨-, h1, h2⟩ | ⟨ds, h1, -, -⟩
      · exact ⟨h1, h2⟩
      · cases h1
    have he0 : e = 0 := by
      rcases he with ⟨-, h1⟩ | ⟨c, s, ds, n, -, -, h1, -⟩
      · exact h1
      · cases h1
    rw [hlf.1, hlf.2] at hn
    rw [hlf.1, he0] at hk
    simp only [Nat.pow_zero, Nat.mul_one, Nat.add_zero] at hn
    simp only [List.append_nil] at ht
    unfold fltScalar
    rw [hnf]
    simp only [Bool.false_eq_true, if_false, hd]
    have hi' : (if t.head? = some 0x2D then -(y.n : Int) else (y.n : Int)) = if y.neg then -(i : Int) else i := by
      rw [← hh, hn]
      simp
    rw [hi']
    refine ⟨⟨rfl, by rw [ht]; exact l1, by rw [ht]; exact l2⟩, ?_, by simp⟩
    simp only [JScalar.number, Option.some.injEq, hh]
    cases y with
    | mk neg n k =>
      simp only at hn hk ⊢
      subst hn
      cases neg <;> simp <;> simpa using hk.symm
  · have hnf : hasFrac t = true := by
      rw [ht]
      unfold hasFrac
      rw [List.any_append, List.any_append, List.any_append]
      rcases hf with ⟨rfl, -, -⟩ | ⟨ds, rfl, -, -⟩
      · rcases he with ⟨rfl, -⟩ | ⟨c, s, ds, n, hc, -, rfl, -⟩
        · exact absurd rfl hfe
        · rcases hc with rfl | rfl <;> simp
      · simp
    unfold fltScalar
    rw [hnf]
    simp only [if_true, hd]
    refine ⟨⟨rfl, ⟨s ++ ip, _, fp, ep, l1, l2, frac_of hf, expo_of he, hfe, by rw [ht]; simp⟩, hy⟩, rfl, by simp⟩

end Thors
