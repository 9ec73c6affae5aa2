import Verif.Proofs.FloatText
/-
Lemmas: the printed text of a floating point value and the value it is read back as.
-/
namespace Thors
open Spec StrIn

theorem canon_zero {f : FKind} {E : Nat} (h : Canon f 0 E) : E = 0 := by
  rcases h.2 with h | h
  · exact h
  · have := pow_pos2 (f.prec - 1); omega

theorem toFlt_eq (f : FKind) (x : Decimal) : x.toFlt f =
    if (x.round f).2 > f.emax ∨ ((x.round f).1 = 0 ∧ x.n ≠ 0) then none else some (.fin x.neg (x.round f).1 (x.round f).2) := rfl

theorem toFlt_some {f : FKind} {x : Decimal} {v : Flt} (h : x.toFlt f = some v) :
    v = .fin x.neg (x.round f).1 (x.round f).2 ∧ (x.round f).2 ≤ f.emax ∧ ((x.round f).1 = 0 → x.n = 0) := by
  rw [toFlt_eq] at h
  split at h
  · cases h
  · rename_i hn
    cases h
    refine ⟨rfl, by omega, ?_⟩
    intro h0
    rcases Nat.eq_zero_or_pos x.n with h1 | h1
    · exact h1
    · exact absurd (Or.inr ⟨h0, by omega⟩) hn

theorem toFlt_value {f : FKind} (hp : 0 < f.prec) {x : Decimal} {v : Flt} (h : x.toFlt f = some v) : IsFlt f v := by
  obtain ⟨rfl, h2, _⟩ := toFlt_some h
  exact ⟨nearest_canon f hp (den_pos x), h2⟩

/-- A decimal number that is a value of the type is read as that value. -/
theorem toFlt_exact {f : FKind} (hp : 0 < f.prec) {neg : Bool} {m E : Nat} (h : IsFlt f (.fin neg m E)) {n : Nat} {k : Int}
    (he : n * 10 ^ k.toNat * 2 ^ f.q = m * 2 ^ E * 10 ^ (-k).toNat) : Decimal.toFlt f ⟨neg, n, k⟩ = some (.fin neg m E) := by
  have hr : Decimal.round f ⟨neg, n, k⟩ = (m, E) := by
    show nearest f (n * 10 ^ k.toNat * 2 ^ f.q) (10 ^ (-k).toNat) = (m, E)
    rw [he]
    exact nearest_exact f hp h.1 (pow_pos10 _)
  rw [toFlt_eq, hr, if_neg]
  rintro (h1 | ⟨rfl, h2⟩)
  · exact absurd h.2 (Nat.not_le.2 h1)
  · simp only [Nat.zero_mul] at he
    rcases Nat.mul_eq_zero.1 he with h3 | h3
    · rcases Nat.mul_eq_zero.1 h3 with h4 | h4
      · exact h2 h4
      · have := pow_pos10 k.toNat; omega
    · have := pow_pos2 f.q; omega

/-- The digits that are printed with six places behind the point. -/
def micro (f : FKind) (m E : Nat) : Nat := rnd (m * 2 ^ E * 10 ^ 6) (2 ^ f.q)

theorem fixed6_number (f : FKind) (neg : Bool) (m E : Nat) : JsonNumber (fixed6 f (.fin neg m E)) ⟨neg, micro f m E, -6⟩ := fixed_number neg _

/-- Values that are a multiple of a millionth come back. -/
theorem micro_exact {f : FKind} (hp : 0 < f.prec) {neg : Bool} {m E : Nat} (h : IsFlt f (.fin neg m E))
    (hd : 2 ^ f.q ∣ m * 2 ^ E * 10 ^ 6) : Decimal.toFlt f ⟨neg, micro f m E, -6⟩ = some (.fin neg m E) := by
  obtain ⟨N, hN⟩ := hd
  have hm : micro f m E = N := by
    unfold micro; rw [hN, Nat.mul_comm]; exact rnd_exact N (pow_pos2 _)
  rw [hm]
  refine toFlt_exact hp h ?_
  show N * 10 ^ 0 * 2 ^ f.q = m * 2 ^ E * 10 ^ 6
  rw [hN]; simp [Nat.mul_comm]

/-- The digits of a number with at most six places behind the point are those that are printed for its nearest
value, as long as the number is small enough for the precision. -/
theorem micro_short {f : FKind} (hp : 20 ≤ f.prec) (hq : 20 ≤ f.q) {N : Nat} (hN : N < 2 ^ (f.prec - 20) * 10 ^ 6) (neg : Bool) :
    micro f (Decimal.round f ⟨neg, N, -6⟩).1 (Decimal.round f ⟨neg, N, -6⟩).2 = N := by
  have hr : Decimal.round f ⟨neg, N, -6⟩ = nearest f (N * 2 ^ f.q) (10 ^ 6) := by
    show nearest f (N * 10 ^ 0 * 2 ^ f.q) (10 ^ 6) = _
    simp
  rw [hr]
  have hd : (0 : Nat) < 10 ^ 6 := by decide
  obtain ⟨e1, e2⟩ := nearest_error f (by omega) (n := N * 2 ^ f.q) hd
  have hE : nearestE f (N * 2 ^ f.q) (10 ^ 6) ≤ f.q - 20 := by
    have hlt : N * 2 ^ f.q / 10 ^ 6 < 2 ^ (f.prec - 20 + f.q) := by
      rw [Nat.div_lt_iff_lt_mul hd, Nat.pow_add, Nat.mul_right_comm]
      exact Nat.mul_lt_mul_of_pos_right hN (pow_pos2 _)
    unfold nearestE
    by_cases h0 : N * 2 ^ f.q / 10 ^ 6 = 0
    · rw [h0]
      have : Nat.log2 0 = 0 := by decide
      omega
    · have := (Nat.log2_lt h0).2 hlt
      omega
  have hs : 10 ^ 6 * 2 ^ nearestE f (N * 2 ^ f.q) (10 ^ 6) < 2 ^ f.q := by
    refine Nat.lt_of_le_of_lt (Nat.mul_le_mul_left _ (Nat.pow_le_pow_right (by omega) hE)) ?_
    have : 2 ^ f.q = 2 ^ 20 * 2 ^ (f.q - 20) := by rw [← Nat.pow_add]; congr 1; omega
    rw [this]
    exact Nat.mul_lt_mul_of_pos_right (by decide) (pow_pos2 _)
  unfold micro
  refine rnd_unique (pow_pos2 _) ?_ ?_
  · omega
  · omega

/-- A number with at most six places behind the point comes back. -/
theorem fixed6_short {f : FKind} (hp : 20 ≤ f.prec) (hq : 20 ≤ f.q) {N : Nat} (hN : N < 2 ^ (f.prec - 20) * 10 ^ 6) (neg : Bool) {v : Flt}
    (hv : Decimal.toFlt f ⟨neg, N, -6⟩ = some v) : JsonNumber (fixed6 f v) ⟨neg, N, -6⟩ := by
  obtain ⟨rfl, _, _⟩ := toFlt_some hv
  have := fixed6_number f neg (Decimal.round f ⟨neg, N, -6⟩).1 (Decimal.round f ⟨neg, N, -6⟩).2
  rwa [micro_short hp hq hN neg] at this

/-- The error of six places behind the point. -/
theorem micro_error (f : FKind) (m E : Nat) : 2 * dist (micro f m E * 2 ^ f.q) (m * 2 ^ E * 10 ^ 6) ≤ 2 ^ f.q := by
  have := rnd_bound (n := m * 2 ^ E * 10 ^ 6) (pow_pos2 f.q)
  unfold dist micro
  omega

/-! Six significant digits. -/

theorem natText_length_le {k n : Nat} (h : n < 10 ^ k) (hk : 0 < k) : (natText n).length ≤ k := by
  induction k generalizing n with
  | zero => omega
  | succ k ih =>
    rw [natText]
    split
    · simp
    · rename_i h10
      have hk' : 0 < k := by
        rcases Nat.eq_zero_or_pos k with rfl | h0
        · simp at h; omega
        · exact h0
      have := ih (n := n / 10) (by rw [Nat.div_lt_iff_lt_mul (by omega)]; rwa [Nat.pow_succ] at h) hk'
      simp; omega

theorem natText_length_ge {k n : Nat} (h : 10 ^ k ≤ n) : k + 1 ≤ (natText n).length := by
  induction k generalizing n with
  | zero =>
    have := (dec_iff.1 (natText_dec n)).1
    have := List.length_pos_iff.2 this
    omega
  | succ k ih =>
    have h10 : ¬ n < 10 := by
      have := pow_pos10 k
      rw [Nat.pow_succ] at h; omega
    rw [natText, dif_neg h10]
    have := ih (n := n / 10) (by rw [Nat.le_div_iff_mul_le (by omega)]; rwa [Nat.pow_succ] at h)
    simp; omega

theorem natText_length_range (n : Nat) (hn : 0 < n) : 10 ^ ((natText n).length - 1) ≤ n ∧ n < 10 ^ (natText n).length := by
  have hpos : 0 < (natText n).length := List.length_pos_iff.2 (dec_iff.1 (natText_dec n)).1
  constructor
  · rcases Nat.lt_or_ge n (10 ^ ((natText n).length - 1)) with h | h
    · exfalso
      by_cases h1 : (natText n).length = 1
      · rw [h1] at h; simp at h; omega
      · have := natText_length_le h (by omega)
        omega
    · exact h
  · rcases Nat.lt_or_ge n (10 ^ (natText n).length) with h | h
    · exact h
    · have := natText_length_ge h; omega

/-- The decimal exponent: `10^X ≤ n / d < 10^(X+1)`. -/
theorem expo10_spec {n d : Nat} (hn : 0 < n) (hd : 0 < d) :
    d * 10 ^ (expo10 n d).toNat ≤ n * 10 ^ (-expo10 n d).toNat ∧
    n * 10 ^ (-(expo10 n d + 1)).toNat < d * 10 ^ (expo10 n d + 1).toNat := by
  unfold expo10
  split
  · rename_i h
    have hq : 0 < n / d := Nat.div_pos h hd
    obtain ⟨h1, h2⟩ := natText_length_range (n / d) hq
    have hpos : 0 < (natText (n / d)).length := List.length_pos_iff.2 (dec_iff.1 (natText_dec (n / d))).1
    generalize (natText (n / d)).length = L at h1 h2 hpos
    have e1 : ((L : Int) - 1).toNat = L - 1 := by omega
    have e2 : (-((L : Int) - 1)).toNat = 0 := by omega
    have e3 : ((L : Int) - 1 + 1).toNat = L := by omega
    have e4 : (-((L : Int) - 1 + 1)).toNat = 0 := by omega
    rw [e1, e2, e3, e4]
    rw [Nat.le_div_iff_mul_le hd] at h1
    rw [Nat.div_lt_iff_lt_mul hd] at h2
    simp only [Nat.pow_zero, Nat.mul_one]
    exact ⟨by rw [Nat.mul_comm]; exact h1, by rw [Nat.mul_comm d]; exact h2⟩
  · rename_i h
    have hq : 0 < (d - 1) / n := Nat.div_pos (by omega) hn
    obtain ⟨h1, h2⟩ := natText_length_range ((d - 1) / n) hq
    have hpos : 0 < (natText ((d - 1) / n)).length := List.length_pos_iff.2 (dec_iff.1 (natText_dec ((d - 1) / n))).1
    generalize (natText ((d - 1) / n)).length = L at h1 h2 hpos
    have e1 : (-(L : Int)).toNat = 0 := by omega
    have e2 : (-(-(L : Int))).toNat = L := by omega
    have e3 : (-(L : Int) + 1).toNat = 0 := by omega
    have e4 : (-(-(L : Int) + 1)).toNat = L - 1 := by omega
    rw [e1, e2, e3, e4]
    rw [Nat.le_div_iff_mul_le hn] at h1
    rw [Nat.div_lt_iff_lt_mul hn] at h2
    simp only [Nat.pow_zero, Nat.mul_one]
    exact ⟨by rw [Nat.mul_comm n]; omega, by rw [Nat.mul_comm n]; omega⟩

/-- `10^X ≤ n / d`. -/
def Ge10 (n d : Nat) (X : Int) : Prop := d * 10 ^ X.toNat ≤ n * 10 ^ (-X).toNat

theorem pow10_eq {a b : Nat} (h : a = b) : 10 ^ a = 10 ^ b := by rw [h]

theorem ge10_shift (n d : Nat) (Y : Int) (c : Nat) : Ge10 n d (Y + c) ↔ d * 10 ^ c * 10 ^ Y.toNat ≤ n * 10 ^ (-Y).toNat := by
  unfold Ge10
  rw [← Nat.mul_le_mul_right_iff (pow_pos10 (-Y).toNat), ← Nat.mul_le_mul_right_iff (pow_pos10 (-(Y + c)).toNat) (n := d * 10 ^ c * 10 ^ Y.toNat)]
  have e1 : d * 10 ^ (Y + c).toNat * 10 ^ (-Y).toNat = d * 10 ^ c * 10 ^ Y.toNat * 10 ^ (-(Y + c)).toNat := by
    simp only [Nat.mul_assoc, ← Nat.pow_add]
    congr 1
    exact pow10_eq (by omega)
  rw [e1, Nat.mul_right_comm n]

theorem ge10_pred {n d : Nat} {X : Int} (h : Ge10 n d (X + 1)) : Ge10 n d X := by
  have h1 := (ge10_shift n d X 1).1 h
  have h2 := (ge10_shift n d X 0).2 (by
    refine Nat.le_trans (Nat.mul_le_mul_right _ ?_) h1
    simp; omega)
  simpa using h2

theorem ge10_mono {n d : Nat} {X : Int} (c : Nat) (h : Ge10 n d (X + c)) : Ge10 n d X := by
  induction c with
  | zero => simpa using h
  | succ c ih =>
    apply ih
    apply ge10_pred
    have : X + (c : Int) + 1 = X + ((c + 1 : Nat) : Int) := by omega
    rw [this]; exact h

theorem ge10_le {n d : Nat} {X Y : Int} (hXY : X ≤ Y) (h : Ge10 n d Y) : Ge10 n d X := by
  refine ge10_mono (Y - X).toNat ?_
  have : X + ((Y - X).toNat : Int) = Y := by omega
  rw [this]; exact h

theorem expo10_ge {n d : Nat} (hn : 0 < n) (hd : 0 < d) : Ge10 n d (expo10 n d) ∧ ¬ Ge10 n d (expo10 n d + 1) := by
  obtain ⟨h1, h2⟩ := expo10_spec hn hd
  exact ⟨h1, Nat.not_le.2 h2⟩

theorem expo10_unique {n d : Nat} (hn : 0 < n) (hd : 0 < d) {X : Int} (h1 : Ge10 n d X) (h2 : ¬ Ge10 n d (X + 1)) : expo10 n d = X := by
  obtain ⟨g1, g2⟩ := expo10_ge hn hd
  rcases Int.lt_trichotomy (expo10 n d) X with h | h | h
  · exact absurd (ge10_le (by omega) h1) g2
  · exact h
  · exact absurd (ge10_le (by omega) g1) h2

/-- The leading digits are six digits. -/
theorem digits6_range {n d : Nat} (hn : 0 < n) (hd : 0 < d) : 10 ^ 5 ≤ (digits6 n d).1 ∧ (digits6 n d).1 < 10 ^ 6 := by
  obtain ⟨g1, g2⟩ := expo10_ge hn hd
  unfold digits6
  generalize expo10 n d = X at g1 g2
  have h1 := (ge10_shift n d (X - 5) 5).1 (by rw [show X - 5 + ((5 : Nat) : Int) = X by omega]; exact g1)
  have h2 : ¬ d * 10 ^ 6 * 10 ^ (X - 5).toNat ≤ n * 10 ^ (-(X - 5)).toNat := fun h => g2 (by
    have h := (ge10_shift n d (X - 5) 6).2 h
    rwa [show X - 5 + ((6 : Nat) : Int) = X + 1 by omega] at h)
  rw [show -(X - 5) = 5 - X by omega] at h1 h2
  have hW : 0 < d * 10 ^ (X - 5).toNat := Nat.mul_pos hd (pow_pos10 _)
  rw [Nat.mul_right_comm, Nat.mul_comm (d * 10 ^ (X - 5).toNat)] at h1 h2
  have r1 := rnd_ge hW h1
  have r2 := rnd_le hW (Nat.le_of_lt (Nat.not_le.1 h2))
  simp only
  split
  · exact ⟨Nat.le_refl _, by show 10 ^ 5 < 10 ^ 6; decide⟩
  · simp only; omega

/-- A number close enough to one of six significant digits is printed with those digits. -/
theorem digits6_close {n d D : Nat} {X : Int} (hn : 0 < n) (hd : 0 < d) (hD1 : 10 ^ 5 ≤ D) (hD2 : D < 10 ^ 6)
    (hc : dist (n * 10 ^ (5 - X).toNat) (D * (d * 10 ^ (X - 5).toNat)) * 2 ^ 21 ≤ D * (d * 10 ^ (X - 5).toNat)) : digits6 n d = (D, X) := by
  have s : ∀ c : Nat, Ge10 n d (X - 5 + c) ↔ 10 ^ c * (d * 10 ^ (X - 5).toNat) ≤ n * 10 ^ (5 - X).toNat := by
    intro c
    rw [ge10_shift, show -(X - 5) = 5 - X by omega, Nat.mul_right_comm, Nat.mul_comm (d * 10 ^ (X - 5).toNat)]
  have hW : 0 < d * 10 ^ (X - 5).toNat := Nat.mul_pos hd (pow_pos10 _)
  have hlt : D * (d * 10 ^ (X - 5).toNat) < 10 ^ 6 * (d * 10 ^ (X - 5).toNat) := Nat.mul_lt_mul_of_pos_right hD2 hW
  have hle : (D + 1) * (d * 10 ^ (X - 5).toNat) ≤ 10 ^ 6 * (d * 10 ^ (X - 5).toNat) := Nat.mul_le_mul_right _ hD2
  rw [Nat.succ_mul] at hle
  have hge : 10 ^ 5 * (d * 10 ^ (X - 5).toNat) ≤ D * (d * 10 ^ (X - 5).toNat) := Nat.mul_le_mul_right _ hD1
  by_cases hcase : 10 ^ 5 * (d * 10 ^ (X - 5).toNat) ≤ n * 10 ^ (5 - X).toNat
  · have hX : expo10 n d = X := by
      refine expo10_unique hn hd ?_ ?_
      · have := (s 5).2 hcase
        rwa [show X - 5 + ((5 : Nat) : Int) = X by omega] at this
      · intro h
        rw [show X + 1 = X - 5 + ((6 : Nat) : Int) by omega] at h
        have h := (s 6).1 h
        unfold dist at hc
        omega
    unfold digits6
    simp only [hX]
    have hr : rnd (n * 10 ^ (5 - X).toNat) (d * 10 ^ (X - 5).toNat) = D := by
      unfold dist at hc
      exact rnd_unique hW (by omega) (by omega)
    rw [hr, if_neg (by omega)]
  · have hD : D = 10 ^ 5 := by
      rcases Nat.lt_or_ge (10 ^ 5) D with h | h
      · exfalso
        have := Nat.mul_le_mul_right (d * 10 ^ (X - 5).toNat) h
        rw [Nat.succ_mul] at this
        unfold dist at hc
        omega
      · omega
    have hX : expo10 n d = X - 1 := by
      refine expo10_unique hn hd ?_ ?_
      · have := (s 4).2 (by rw [hD] at hc; unfold dist at hc; omega)
        rwa [show X - 5 + ((4 : Nat) : Int) = X - 1 by omega] at this
      · intro h
        rw [show X - 1 + 1 = X - 5 + ((5 : Nat) : Int) by omega] at h
        exact hcase ((s 5).1 h)
    unfold digits6
    simp only [hX]
    have hr : rnd (n * 10 ^ (5 - (X - 1)).toNat) (d * 10 ^ (X - 1 - 5).toNat) = 10 ^ 6 := by
      rw [rnd_ratio (n' := n * 10 ^ (5 - X).toNat * 10) (d' := d * 10 ^ (X - 5).toNat) (Nat.mul_pos hd (pow_pos10 _)) hW]
      · rw [hD] at hc
        unfold dist at hc
        exact rnd_unique hW (by omega) (by omega)
      · have e : 10 ^ (5 - (X - 1)).toNat * 10 ^ (X - 5).toNat = 10 ^ (5 - X).toNat * 10 * 10 ^ (X - 1 - 5).toNat := by
          rw [← Nat.pow_succ, ← Nat.pow_add, ← Nat.pow_add]
          exact pow10_eq (by omega)
        calc n * 10 ^ (5 - (X - 1)).toNat * (d * 10 ^ (X - 5).toNat)
            = n * d * (10 ^ (5 - (X - 1)).toNat * 10 ^ (X - 5).toNat) := by
              simp only [Nat.mul_assoc, Nat.mul_left_comm, Nat.mul_comm]
          _ = n * d * (10 ^ (5 - X).toNat * 10 * 10 ^ (X - 1 - 5).toNat) := by rw [e]
          _ = _ := by simp only [Nat.mul_assoc, Nat.mul_left_comm, Nat.mul_comm]
    rw [hr, if_pos rfl, hD]
    simp

theorem same_scale (neg : Bool) (n z : Nat) (k : Int) : SameNumber ⟨neg, n, k⟩ ⟨neg, n * 10 ^ z, k - z⟩ := by
  refine ⟨rfl, ?_⟩
  simp only [Nat.mul_assoc, ← Nat.pow_add]
  congr 1
  exact pow10_eq (by omega)

theorem same_refl (x : Decimal) : SameNumber x x := ⟨rfl, rfl⟩

theorem takeWhile_replicate (l : Bytes) : ∃ z, l.takeWhile (· = 0x30) = List.replicate z 0x30 := by
  induction l with
  | nil => exact ⟨0, rfl⟩
  | cons c cs ih =>
    by_cases h : c = 0x30
    · obtain ⟨z, hz⟩ := ih
      refine ⟨z + 1, ?_⟩
      rw [List.takeWhile_cons_of_pos (by simp [h]), hz, h, List.replicate_succ]
    · exact ⟨0, by rw [List.takeWhile_cons_of_neg (by simp [h])]; rfl⟩

theorem stripZeros_spec (t : Bytes) : ∃ z, t = stripZeros t ++ List.replicate z 0x30 := by
  obtain ⟨z, hz⟩ := takeWhile_replicate t.reverse
  refine ⟨z, ?_⟩
  have := congrArg List.reverse (List.takeWhile_append_dropWhile (p := (· = 0x30)) (l := t.reverse))
  rw [List.reverse_append, hz, List.reverse_reverse, List.reverse_replicate] at this
  exact this.symm

theorem digitsVal_zeros (z : Nat) : digitsVal (List.replicate z 0x30) = 0 := by
  induction z with
  | zero => rfl
  | succ z ih => rw [List.replicate_succ', digitsVal_snoc, ih]; rfl

theorem fracText_spec (w r : Nat) (h : r < 10 ^ w) : ∃ len fr z, FracVal (fracText (pad w r)) len fr ∧ r = fr * 10 ^ z ∧ w = len + z := by
  obtain ⟨z, hz⟩ := stripZeros_spec (pad w r)
  have hlen := congrArg List.length hz
  rw [pad_length, List.length_append, List.length_replicate] at hlen
  have hval := congrArg digitsVal hz
  rw [pad_val, Nat.mod_eq_of_lt h, digitsVal_append, digitsVal_zeros, List.length_replicate, Nat.add_zero] at hval
  unfold fracText
  split
  · rename_i h0
    rw [h0] at hlen hval
    refine ⟨0, 0, z, .inl ⟨rfl, rfl, rfl⟩, hval, hlen⟩
  · rename_i h0
    refine ⟨_, _, z, .inr ⟨_, rfl, dec_iff.2 ⟨h0, ?_, rfl⟩, rfl⟩, hval, hlen⟩
    intro c hc
    refine pad_digits w r c ?_
    rw [hz]; exact List.mem_append_left _ hc

/-- Digits and a fraction. -/
theorem general_fixed (neg : Bool) (D w : Nat) (ep : Bytes) (e : Int) (he : ExpoVal ep e) :
    ∃ y, JsonNumber (signText neg ++ (natText (D / 10 ^ w) ++ (fracText (pad w (D % 10 ^ w)) ++ ep))) y ∧ SameNumber y ⟨neg, D, e - w⟩ := by
  obtain ⟨len, fr, z, hf, hr, hw⟩ := fracText_spec w (D % 10 ^ w) (Nat.mod_lt _ (pow_pos10 w))
  refine ⟨⟨neg, D / 10 ^ w * 10 ^ len + fr, e - len⟩, ⟨signText neg, natText (D / 10 ^ w), _, ep, _, len, fr, e, rfl, natText_dec _,
    natText_noLeadingZero _, hf, he, rfl, rfl, rfl⟩, ?_⟩
  have hD : D = (D / 10 ^ w * 10 ^ len + fr) * 10 ^ z := by
    rw [Nat.add_mul, Nat.mul_assoc, ← Nat.pow_add, ← hw, ← hr]
    exact (div_mod _ _).symm
  have hs := same_scale neg (D / 10 ^ w * 10 ^ len + fr) z (e - len)
  rw [← hD] at hs
  rwa [show e - (len : Int) - z = e - w by omega] at hs

theorem dec_zero {t : Bytes} {n : Nat} (h : Dec t n) : Dec (0x30 :: t) n := by
  obtain ⟨h1, h2, h3⟩ := dec_iff.1 h
  refine dec_iff.2 ⟨by simp, ?_, ?_⟩
  · intro c hc
    rcases List.mem_cons.1 hc with rfl | hc
    · rfl
    · exact h2 c hc
  · have := digitsVal_append [0x30] t
    rw [List.singleton_append] at this
    rw [this, h3]
    simp [digitsVal]

/-- The text of six significant digits. -/
theorem generalText_number (neg : Bool) (D : Nat) (X : Int) :
    ∃ y, JsonNumber (signText neg ++ generalText D X) y ∧ SameNumber y ⟨neg, D, X - 5⟩ := by
  unfold generalText
  split
  · rename_i h
    obtain ⟨y, h1, h2⟩ := general_fixed neg D (5 - X).toNat [] 0 (.inl ⟨rfl, rfl⟩)
    refine ⟨y, by simpa using h1, ?_⟩
    rwa [show (0 : Int) - ((5 - X).toNat : Int) = X - 5 by omega] at h2
  · have hd : Dec ((if X.natAbs < 10 then [0x30] else []) ++ natText X.natAbs) X.natAbs := by
      split
      · exact dec_zero (natText_dec _)
      · exact natText_dec _
    obtain ⟨y, h1, h2⟩ := general_fixed neg D 5 (0x65 :: ((if X < 0 then [0x2D] else [0x2B]) ++
        ((if X.natAbs < 10 then [0x30] else []) ++ natText X.natAbs))) X
      (.inr ⟨0x65, _, _, _, .inl rfl, hd, rfl, by
        by_cases hx : X < 0
        · exact .inr (.inr ⟨by rw [if_pos hx], by omega⟩)
        · exact .inr (.inl ⟨by rw [if_neg hx], by omega⟩)⟩)
    refine ⟨y, ?_, h2⟩
    simpa using h1

/-- The text of a finite value that is not zero on a stream is a JSON number, with the six leading digits of the
value. -/
theorem general6_number (f : FKind) (neg : Bool) {m E : Nat} (hm : m ≠ 0) :
    ∃ y, JsonNumber (general6 f (.fin neg m E)) y ∧
      SameNumber y ⟨neg, (digits6 (m * 2 ^ E) (2 ^ f.q)).1, (digits6 (m * 2 ^ E) (2 ^ f.q)).2 - 5⟩ := by
  simp only [general6, if_neg hm]
  exact generalText_number _ _ _

theorem zero_number (neg : Bool) : JsonNumber (signText neg ++ b!"0.0") ⟨neg, 0, -1⟩ :=
  ⟨signText neg, b!"0", b!".0", [], 0, 1, 0, 0, rfl, .one (.mk 0 (by omega)), by simp [leadingZero],
    .inr ⟨b!"0", rfl, .one (.mk 0 (by omega)), rfl⟩, .inl ⟨rfl, rfl⟩, by simp, rfl, rfl⟩

/-- The relative error of a value that is not below the smallest normal one. -/
theorem nearest_relative (f : FKind) (hp : 0 < f.prec) {n d : Nat} (hd : 0 < d) (hn : 2 ^ (f.prec - 1) * d ≤ n) :
    dist ((nearest f n d).1 * 2 ^ (nearest f n d).2 * d) n * 2 ^ f.prec ≤ n := by
  have herr := nearest_error f hp (n := n) hd
  have h1 : 2 ^ (f.prec - 1) * (d * 2 ^ nearestE f n d) ≤ n := by
    by_cases hE : nearestE f n d = 0
    · rw [hE]; simpa using hn
    · exact nearestE_lower f hp hd hE
  have h2 : 2 * dist ((nearest f n d).1 * 2 ^ (nearest f n d).2 * d) n ≤ d * 2 ^ nearestE f n d := by
    unfold dist; omega
  refine Nat.le_trans ?_ h1
  rw [← two_pow_pred hp, Nat.mul_comm _ (2 ^ (f.prec - 1) * 2), Nat.mul_assoc]
  exact Nat.mul_le_mul_left _ h2

/-- A number of six significant digits is printed with those digits, if it is not below the smallest normal value. -/
theorem general6_short {f : FKind} (hp : 21 ≤ f.prec) {D : Nat} {X : Int} (hD1 : 10 ^ 5 ≤ D) (hD2 : D < 10 ^ 6) (neg : Bool)
    (hnorm : 2 ^ (f.prec - 1) * 10 ^ (5 - X).toNat ≤ D * 10 ^ (X - 5).toNat * 2 ^ f.q) {v : Flt}
    (hv : Decimal.toFlt f ⟨neg, D, X - 5⟩ = some v) :
    ∃ y, JsonNumber (general6 f v) y ∧ SameNumber y ⟨neg, D, X - 5⟩ := by
  have hp0 : 0 < f.prec := by omega
  obtain ⟨rfl, _, h0⟩ := toFlt_some hv
  have hr : Decimal.round f ⟨neg, D, X - 5⟩ = nearest f (D * 10 ^ (X - 5).toNat * 2 ^ f.q) (10 ^ (5 - X).toNat) := by
    show nearest f (D * 10 ^ (X - 5).toNat * 2 ^ f.q) (10 ^ (-(X - 5)).toNat) = _
    rw [show -(X - 5) = 5 - X by omega]
  rw [hr] at h0 ⊢
  have hm : (nearest f (D * 10 ^ (X - 5).toNat * 2 ^ f.q) (10 ^ (5 - X).toNat)).1 ≠ 0 := by
    intro h
    have := h0 h
    simp only at this
    omega
  have hrel := nearest_relative f hp0 (pow_pos10 _) hnorm
  generalize nearest f (D * 10 ^ (X - 5).toNat * 2 ^ f.q) (10 ^ (5 - X).toNat) = r at hm hrel
  have hdig : digits6 (r.1 * 2 ^ r.2) (2 ^ f.q) = (D, X) := by
    refine digits6_close (Nat.mul_pos (by omega) (pow_pos2 _)) (pow_pos2 _) hD1 hD2 ?_
    rw [Nat.mul_assoc D, Nat.mul_comm (10 ^ (X - 5).toNat) (2 ^ f.q)] at hrel
    refine Nat.le_trans (Nat.mul_le_mul_left _ (Nat.pow_le_pow_right (by omega) hp)) hrel
  obtain ⟨y, h1, h2⟩ := general6_number f neg hm (E := r.2)
  rw [hdig] at h2
  exact ⟨y, h1, h2⟩

/-- Numbers in the range of the type are converted. -/
theorem round_range {f : FKind} (hp : 0 < f.prec) {x : Decimal} (hmax : decNum f x ≤ (2 ^ f.prec - 1) * 2 ^ f.emax * decDen x) :
    (x.round f).2 ≤ f.emax := by
  have hd := den_pos x
  have hr : x.round f = nearest f (decNum f x) (decDen x) := rfl
  have hE : nearestE f (decNum f x) (decDen x) ≤ f.emax := by
    have hlt : decNum f x / decDen x < 2 ^ (f.prec + f.emax) := by
      rw [Nat.div_lt_iff_lt_mul hd, Nat.pow_add]
      refine Nat.lt_of_le_of_lt hmax ?_
      refine Nat.mul_lt_mul_of_pos_right (Nat.mul_lt_mul_of_pos_right ?_ (pow_pos2 _)) hd
      have := pow_pos2 f.prec; omega
    unfold nearestE
    by_cases h0 : decNum f x / decDen x = 0
    · rw [h0]
      have : Nat.log2 0 = 0 := by decide
      omega
    · have := (Nat.log2_lt h0).2 hlt
      omega
  have hD : 0 < decDen x * 2 ^ nearestE f (decNum f x) (decDen x) := Nat.mul_pos hd (pow_pos2 _)
  rw [hr, nearest_eq]
  split
  · rename_i hc
    rcases Nat.lt_or_ge (nearestE f (decNum f x) (decDen x)) f.emax with h | h
    · exact h
    · exfalso
      have he : nearestE f (decNum f x) (decDen x) = f.emax := by omega
      rw [he] at hc hD
      have := rnd_le hD (M := 2 ^ f.prec - 1) (n := decNum f x) (by rw [Nat.mul_comm (decDen x), ← Nat.mul_assoc]; exact hmax)
      have := pow_pos2 f.prec
      omega
  · exact hE

theorem toFlt_range {f : FKind} (hp : 0 < f.prec) {x : Decimal} (hmax : decNum f x ≤ (2 ^ f.prec - 1) * 2 ^ f.emax * decDen x)
    (hmin : x.n = 0 ∨ decDen x ≤ decNum f x) : ∃ v, x.toFlt f = some v := by
  have hd := den_pos x
  have hr : x.round f = nearest f (decNum f x) (decDen x) := rfl
  have h2 := round_range hp hmax
  have hD : 0 < decDen x * 2 ^ nearestE f (decNum f x) (decDen x) := Nat.mul_pos hd (pow_pos2 _)
  have h1 : (x.round f).1 = 0 → x.n = 0 := by
    intro h0
    rcases hmin with h | h
    · exact h
    · exfalso
      rw [hr, nearest_eq] at h0
      split at h0
      · have := pow_pos2 (f.prec - 1); simp only at h0; omega
      · simp only at h0
        by_cases hE0 : nearestE f (decNum f x) (decDen x) = 0
        · rw [hE0, Nat.pow_zero, Nat.mul_one] at h0
          have := rnd_ge hd (M := 1) (n := decNum f x) (by omega)
          omega
        · have := rnd_ge hD (nearestE_lower f hp hd hE0)
          have := pow_pos2 (f.prec - 1)
          omega
  refine ⟨.fin x.neg (x.round f).1 (x.round f).2, ?_⟩
  rw [toFlt_eq, if_neg]
  rintro (h | ⟨h, h'⟩)
  · omega
  · exact h' (h1 h)

theorem stringText_fixed (f : FKind) (neg : Bool) {m E : Nat} (hm : m ≠ 0) : stringText f (.fin neg m E) = fixed6 f (.fin neg m E) := by
  unfold stringText
  split
  · simp_all
  · rfl

theorem streamText_general (f : FKind) (neg : Bool) {m E : Nat} (hm : m ≠ 0) : streamText f (.fin neg m E) = general6 f (.fin neg m E) := by
  unfold streamText
  split
  · simp_all
  · rfl

end Thors
