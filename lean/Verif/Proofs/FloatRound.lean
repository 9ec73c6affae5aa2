import Verif.Spec.Float
/-
Lemmas: rounding to integers and to floating point values.
-/
namespace Thors
open Spec

theorem div_mod (n d : Nat) : n / d * d + n % d = n := by rw [Nat.mul_comm]; exact Nat.div_add_mod n d

/-- The error of rounding to an integer is at most one half. -/
theorem rnd_bound {n d : Nat} (hd : 0 < d) : 2 * (rnd n d * d) ≤ 2 * n + d ∧ 2 * n ≤ 2 * (rnd n d * d) + d := by
  have h1 := div_mod n d
  have h2 := Nat.mod_lt n hd
  unfold rnd
  split
  · omega
  · rw [Nat.add_mul]; omega

theorem rnd_unique {n d m : Nat} (hd : 0 < d) (h1 : 2 * (m * d) < 2 * n + d) (h2 : 2 * n < 2 * (m * d) + d) : rnd n d = m := by
  have hb := rnd_bound (n := n) hd
  rcases Nat.lt_trichotomy (rnd n d) m with h | h | h
  · have := Nat.mul_le_mul_right d (Nat.succ_le_of_lt h)
    rw [Nat.succ_mul] at this
    omega
  · exact h
  · have := Nat.mul_le_mul_right d (Nat.succ_le_of_lt h)
    rw [Nat.succ_mul] at this
    omega

theorem rnd_exact (m : Nat) {d : Nat} (hd : 0 < d) : rnd (m * d) d = m := rnd_unique hd (by omega) (by omega)

theorem rnd_le {n d M : Nat} (hd : 0 < d) (h : n ≤ M * d) : rnd n d ≤ M := by
  have hb := (rnd_bound (n := n) hd).1
  rcases Nat.lt_or_ge M (rnd n d) with h' | h'
  · have := Nat.mul_le_mul_right d (Nat.succ_le_of_lt h')
    rw [Nat.succ_mul] at this
    omega
  · exact h'

theorem rnd_ge {n d M : Nat} (hd : 0 < d) (h : M * d ≤ n) : M ≤ rnd n d := by
  have hb := (rnd_bound (n := n) hd).2
  rcases Nat.lt_or_ge (rnd n d) M with h' | h'
  · have := Nat.mul_le_mul_right d (Nat.succ_le_of_lt h')
    rw [Nat.succ_mul] at this
    omega
  · exact h'

theorem rnd_nearest {n d : Nat} (hd : 0 < d) (k : Nat) : dist (rnd n d * d) n ≤ dist (k * d) n := by
  have hb := rnd_bound (n := n) hd
  unfold dist
  rcases Nat.lt_trichotomy k (rnd n d) with h | h | h
  · have := Nat.mul_le_mul_right d (Nat.succ_le_of_lt h)
    rw [Nat.succ_mul] at this
    omega
  · rw [h]; exact Nat.le_refl _
  · have := Nat.mul_le_mul_right d (Nat.succ_le_of_lt h)
    rw [Nat.succ_mul] at this
    omega

theorem rnd_scale (n d : Nat) {c : Nat} (hc : 0 < c) : rnd (n * c) (d * c) = rnd n d := by
  unfold rnd
  rw [Nat.mul_div_mul_right _ _ hc, Nat.mul_mod_mul_right]
  have h1 : (2 * (n % d * c) < d * c) ↔ (2 * (n % d) < d) := by
    rw [← Nat.mul_assoc]; exact Nat.mul_lt_mul_right hc
  have h2 : (2 * (n % d * c) = d * c) ↔ (2 * (n % d) = d) := by
    rw [← Nat.mul_assoc]; exact Nat.mul_left_inj (by omega)
  simp only [h1, h2]

theorem rnd_ratio {n d n' d' : Nat} (hd : 0 < d) (hd' : 0 < d') (h : n * d' = n' * d) : rnd n d = rnd n' d' := by
  rw [← rnd_scale n d hd', ← rnd_scale n' d' hd, h, Nat.mul_comm d d']

/-- The exponent that `nearest` chooses. -/
def nearestE (f : FKind) (n d : Nat) : Nat := Nat.log2 (n / d) + 1 - f.prec

theorem nearestE_upper (f : FKind) {n d : Nat} (hd : 0 < d) : n < 2 ^ f.prec * (d * 2 ^ nearestE f n d) := by
  have h1 : n / d < 2 ^ (f.prec + nearestE f n d) := by
    refine Nat.lt_of_lt_of_le Nat.lt_log2_self (Nat.pow_le_pow_right (by omega) ?_)
    unfold nearestE; omega
  have h2 := (Nat.div_lt_iff_lt_mul hd).1 h1
  rw [Nat.pow_add, Nat.mul_assoc] at h2
  rw [Nat.mul_comm d]; exact h2

theorem nearestE_lower (f : FKind) (hp : 0 < f.prec) {n d : Nat} (hd : 0 < d) (hE : nearestE f n d ≠ 0) :
    2 ^ (f.prec - 1) * (d * 2 ^ nearestE f n d) ≤ n := by
  have hq : n / d ≠ 0 := by
    intro h0
    apply hE
    unfold nearestE
    rw [h0]
    have : Nat.log2 0 = 0 := by decide
    omega
  have h1 : 2 ^ (f.prec - 1 + nearestE f n d) ≤ n / d := by
    refine Nat.le_trans (Nat.pow_le_pow_right (by omega) ?_) (Nat.log2_self_le hq)
    unfold nearestE at hE ⊢; omega
  have h2 := (Nat.le_div_iff_mul_le hd).1 h1
  rw [Nat.pow_add, Nat.mul_assoc] at h2
  rw [Nat.mul_comm d]; exact h2

theorem nearest_eq (f : FKind) (n d : Nat) : nearest f n d =
    if rnd n (d * 2 ^ nearestE f n d) = 2 ^ f.prec then (2 ^ (f.prec - 1), nearestE f n d + 1)
    else (rnd n (d * 2 ^ nearestE f n d), nearestE f n d) := rfl

theorem pow_pos2 (k : Nat) : 0 < 2 ^ k := Nat.pow_pos (by omega)
theorem pow_pos10 (k : Nat) : 0 < 10 ^ k := Nat.pow_pos (by omega)

theorem two_pow_pred {p : Nat} (hp : 0 < p) : 2 ^ (p - 1) * 2 = 2 ^ p := by
  obtain ⟨p, rfl⟩ : ∃ p', p = p' + 1 := ⟨p - 1, by omega⟩
  rw [Nat.add_sub_cancel, Nat.pow_succ]

/-- The value of the result, whichever of the two forms it has. -/
theorem nearest_value (f : FKind) (hp : 0 < f.prec) (n d : Nat) :
    (nearest f n d).1 * 2 ^ (nearest f n d).2 = rnd n (d * 2 ^ nearestE f n d) * 2 ^ nearestE f n d := by
  rw [nearest_eq]
  split
  · rename_i h
    rw [h]
    simp only
    rw [Nat.pow_succ, Nat.mul_comm (2 ^ nearestE f n d) 2, ← Nat.mul_assoc, two_pow_pred hp]
  · rfl

theorem nearest_canon (f : FKind) (hp : 0 < f.prec) {n d : Nat} (hd : 0 < d) : Canon f (nearest f n d).1 (nearest f n d).2 := by
  have hD : 0 < d * 2 ^ nearestE f n d := Nat.mul_pos hd (pow_pos2 _)
  have hup := rnd_le hD (Nat.le_of_lt (nearestE_upper f (n := n) hd))
  rw [nearest_eq]
  split
  · refine ⟨?_, .inr (Nat.le_refl _)⟩
    exact Nat.pow_lt_pow_right (by omega) (by omega)
  · refine ⟨by simp only; omega, ?_⟩
    by_cases hE : nearestE f n d = 0
    · exact .inl hE
    · exact .inr (rnd_ge hD (nearestE_lower f hp hd hE))

/-- Half a unit in the last place. -/
theorem nearest_error (f : FKind) (hp : 0 < f.prec) {n d : Nat} (hd : 0 < d) :
    2 * ((nearest f n d).1 * 2 ^ (nearest f n d).2 * d) ≤ 2 * n + d * 2 ^ nearestE f n d ∧
    2 * n ≤ 2 * ((nearest f n d).1 * 2 ^ (nearest f n d).2 * d) + d * 2 ^ nearestE f n d := by
  have hD : 0 < d * 2 ^ nearestE f n d := Nat.mul_pos hd (pow_pos2 _)
  have := rnd_bound (n := n) hD
  rw [nearest_value f hp, Nat.mul_assoc, Nat.mul_comm (2 ^ nearestE f n d) d]
  exact this

theorem nearest_best (f : FKind) (hp : 0 < f.prec) {n d : Nat} (hd : 0 < d) (m' E' : Nat) (hm : m' < 2 ^ f.prec) :
    dist ((nearest f n d).1 * 2 ^ (nearest f n d).2 * d) n ≤ dist (m' * 2 ^ E' * d) n := by
  have hD : 0 < d * 2 ^ nearestE f n d := Nat.mul_pos hd (pow_pos2 _)
  rw [nearest_value f hp]
  generalize hE : nearestE f n d = E at hD
  rw [Nat.mul_assoc _ (2 ^ E) d, Nat.mul_comm (2 ^ E) d]
  by_cases h : E ≤ E'
  · have := rnd_nearest (n := n) hD (m' * 2 ^ (E' - E))
    have e : m' * 2 ^ (E' - E) * (d * 2 ^ E) = m' * 2 ^ E' * d := by
      rw [Nat.mul_comm d, ← Nat.mul_assoc, Nat.mul_assoc m', ← Nat.pow_add, Nat.sub_add_cancel h]
    rwa [e] at this
  · have hlow := nearestE_lower f hp hd (by omega : nearestE f n d ≠ 0)
    rw [hE] at hlow
    have h1 := rnd_nearest (n := n) hD (2 ^ (f.prec - 1))
    have h2 : m' * 2 ^ E' * d ≤ 2 ^ (f.prec - 1) * (d * 2 ^ E) := by
      have : m' * 2 ^ E' ≤ 2 ^ (f.prec - 1) * 2 ^ E := by
        obtain ⟨k, rfl⟩ : ∃ k, E = E' + 1 + k := ⟨E - E' - 1, by omega⟩
        have e : 2 ^ (f.prec - 1) * 2 ^ (E' + 1 + k) = 2 ^ f.prec * 2 ^ E' * 2 ^ k := by
          rw [← two_pow_pred hp, Nat.pow_add 2 (E' + 1) k, Nat.pow_succ 2 E']
          simp only [Nat.mul_assoc, Nat.mul_left_comm, Nat.mul_comm]
        rw [e]
        refine Nat.le_trans (Nat.mul_le_mul_right _ (Nat.le_of_lt hm)) ?_
        exact Nat.le_mul_of_pos_right _ (pow_pos2 k)
      rw [Nat.mul_comm d, ← Nat.mul_assoc]
      exact Nat.mul_le_mul_right d this
    unfold dist at h1 ⊢
    omega

theorem log2_of_range {n k : Nat} (h1 : 2 ^ k ≤ n) (h2 : n < 2 ^ (k + 1)) : Nat.log2 n = k := by
  have hn : n ≠ 0 := by have := pow_pos2 k; omega
  exact (Nat.log2_eq_iff hn).2 ⟨h1, h2⟩

/-- A value of the type is its own nearest value. -/
theorem nearest_exact (f : FKind) (hp : 0 < f.prec) {m E d : Nat} (h : Canon f m E) (hd : 0 < d) : nearest f (m * 2 ^ E * d) d = (m, E) := by
  have hE : nearestE f (m * 2 ^ E * d) d = E := by
    unfold nearestE
    rw [Nat.mul_div_cancel _ hd]
    rcases Nat.eq_zero_or_pos E with rfl | hE
    · by_cases hm : m = 0
      · subst hm
        have : Nat.log2 (0 * 2 ^ 0) = 0 := by decide
        rw [this]; omega
      · have : Nat.log2 (m * 2 ^ 0) < f.prec := by
          rw [Nat.pow_zero, Nat.mul_one]
          exact (Nat.log2_lt hm).2 h.1
        omega
    · have hm : 2 ^ (f.prec - 1) ≤ m := by rcases h.2 with h | h; omega; exact h
      have hl : Nat.log2 (m * 2 ^ E) = f.prec - 1 + E := by
        refine log2_of_range ?_ ?_
        · rw [Nat.pow_add]; exact Nat.mul_le_mul_right _ hm
        · rw [show f.prec - 1 + E + 1 = f.prec + E by omega, Nat.pow_add]
          exact Nat.mul_lt_mul_of_pos_right h.1 (pow_pos2 E)
      omega
  rw [nearest_eq, hE, Nat.mul_assoc, Nat.mul_comm (2 ^ E) d, rnd_exact m (Nat.mul_pos hd (pow_pos2 E))]
  rw [if_neg (by have := h.1; omega)]

theorem nearest_ratio (f : FKind) {n d n' d' : Nat} (hd : 0 < d) (hd' : 0 < d') (h : n * d' = n' * d) : nearest f n d = nearest f n' d' := by
  have hq : n / d = n' / d' := by
    rw [← Nat.mul_div_mul_right n d hd', ← Nat.mul_div_mul_right n' d' hd, h, Nat.mul_comm d d']
  have hE : nearestE f n d = nearestE f n' d' := by unfold nearestE; rw [hq]
  have hr : rnd n (d * 2 ^ nearestE f n' d') = rnd n' (d' * 2 ^ nearestE f n' d') := by
    refine rnd_ratio (Nat.mul_pos hd (pow_pos2 _)) (Nat.mul_pos hd' (pow_pos2 _)) ?_
    rw [← Nat.mul_assoc, ← Nat.mul_assoc, h]
  rw [nearest_eq, nearest_eq, hE, hr]

theorem nearest_zero (f : FKind) (hp : 0 < f.prec) {d : Nat} (hd : 0 < d) : nearest f 0 d = (0, 0) := by
  have := nearest_exact f hp (m := 0) (E := 0) (d := d) ⟨pow_pos2 _, .inl rfl⟩ hd
  simpa using this

theorem den_pos (x : Decimal) : 0 < decDen x := pow_pos10 _

theorem round_nearest (f : FKind) (hp : 0 < f.prec) (x : Decimal) : Nearest f x (x.round f).1 (x.round f).2 :=
  ⟨nearest_canon f hp (den_pos x), fun m' E' hm => nearest_best f hp (den_pos x) m' E' hm⟩

theorem round_same (f : FKind) {x y : Decimal} (h : SameNumber x y) : x.round f = y.round f := by
  refine nearest_ratio f (den_pos x) (den_pos y) ?_
  show x.n * 10 ^ x.k.toNat * 2 ^ f.q * 10 ^ (-y.k).toNat = y.n * 10 ^ y.k.toNat * 2 ^ f.q * 10 ^ (-x.k).toNat
  rw [Nat.mul_right_comm, h.2, Nat.mul_right_comm]

theorem same_zero {x y : Decimal} (h : SameNumber x y) : x.n = 0 ↔ y.n = 0 := by
  have h2 := h.2
  constructor
  · intro h0
    rw [h0, Nat.zero_mul, Nat.zero_mul] at h2
    rcases Nat.mul_eq_zero.1 h2.symm with h3 | h3
    · rcases Nat.mul_eq_zero.1 h3 with h4 | h4
      · exact h4
      · have := pow_pos10 y.k.toNat; omega
    · have := pow_pos10 (-x.k).toNat; omega
  · intro h0
    rw [h0, Nat.zero_mul, Nat.zero_mul] at h2
    rcases Nat.mul_eq_zero.1 h2 with h3 | h3
    · rcases Nat.mul_eq_zero.1 h3 with h4 | h4
      · exact h4
      · have := pow_pos10 x.k.toNat; omega
    · have := pow_pos10 (-y.k).toNat; omega

theorem toFlt_same (f : FKind) {x y : Decimal} (h : SameNumber x y) : x.toFlt f = y.toFlt f := by
  unfold Decimal.toFlt
  rw [round_same f h, h.1]
  have := same_zero h
  simp only [ne_eq, this]

end Thors
