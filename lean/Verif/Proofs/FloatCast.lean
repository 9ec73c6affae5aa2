import Verif.Proofs.FloatValue
/-
Conversions between floating point types; the 64 bits of a double.
-/
namespace Thors
open Spec

/-- Every value of `f` is a value of `g`. -/
structure Widens (f g : FKind) : Prop where
  prec : f.prec ≤ g.prec
  q : f.q ≤ g.q
  max : f.prec + f.emax + (g.q - f.q) ≤ g.prec + g.emax
  pos : 0 < f.prec

theorem widens_refl {f : FKind} (h : 0 < f.prec) : Widens f f := ⟨Nat.le_refl _, Nat.le_refl _, by omega, h⟩
theorem widens_32_64 : Widens f32 f64 := ⟨by decide, by decide, by decide, by decide⟩
theorem widens_64_80 : Widens f64 f80 := ⟨by decide, by decide, by decide, by decide⟩
theorem widens_32_80 : Widens f32 f80 := ⟨by decide, by decide, by decide, by decide⟩

theorem widen_fin {f g : FKind} (w : Widens f g) {neg : Bool} {m E : Nat} (h : IsFlt f (.fin neg m E)) :
    ∃ m' E', castFlt f g (.fin neg m E) = .fin neg m' E' ∧ IsFlt g (.fin neg m' E') ∧ m' * 2 ^ E' = m * 2 ^ E * 2 ^ (g.q - f.q) := by
  have hp : 0 < g.prec := Nat.lt_of_lt_of_le w.pos w.prec
  have hd : 0 < 2 ^ f.q := pow_pos2 _
  have hm : m < 2 ^ g.prec := Nat.lt_of_lt_of_le h.1.1 (Nat.pow_le_pow_right (by omega) w.prec)
  have hn : m * 2 ^ (E + (g.q - f.q)) * 2 ^ f.q = m * 2 ^ E * 2 ^ g.q := by
    rw [Nat.mul_assoc, ← Nat.pow_add, Nat.mul_assoc, ← Nat.pow_add]
    congr 2
    have := w.q
    omega
  have hb := nearest_best g hp (n := m * 2 ^ E * 2 ^ g.q) hd m (E + (g.q - f.q)) hm
  have hc := nearest_canon g hp (n := m * 2 ^ E * 2 ^ g.q) hd
  rw [hn] at hb
  simp only [castFlt]
  generalize nearest g (m * 2 ^ E * 2 ^ g.q) (2 ^ f.q) = r at hb hc ⊢
  obtain ⟨m', E'⟩ := r
  simp only at hb hc ⊢
  have he : m' * 2 ^ E' * 2 ^ f.q = m * 2 ^ (E + (g.q - f.q)) * 2 ^ f.q := by
    rw [hn]
    unfold dist at hb
    omega
  have he := Nat.eq_of_mul_eq_mul_right hd he
  rw [Nat.pow_add, ← Nat.mul_assoc] at he
  have hE : E' ≤ g.emax := by
    rcases hc.2 with h0 | h1
    · omega
    · have h2 : 2 ^ (g.prec - 1 + E') < 2 ^ (f.prec + f.emax + (g.q - f.q)) := by
        rw [Nat.pow_add, Nat.pow_add (2 : Nat) (f.prec + f.emax)]
        refine Nat.lt_of_le_of_lt (Nat.mul_le_mul_right _ h1) ?_
        rw [he]
        refine Nat.mul_lt_mul_of_pos_right ?_ (pow_pos2 _)
        rw [Nat.pow_add]
        exact Nat.lt_of_lt_of_le (Nat.mul_lt_mul_of_pos_right h.1.1 (pow_pos2 _))
          (Nat.mul_le_mul_left _ (Nat.pow_le_pow_right (by omega) h.2))
      have h3 := (Nat.pow_lt_pow_iff_right (a := 2) (by omega)).1 h2
      have := w.max
      omega
  rw [if_neg (by omega)]
  exact ⟨m', E', rfl, ⟨hc, hE⟩, he⟩

theorem castFlt_value {f g : FKind} (hg : 0 < g.prec) (x : Flt) : IsFlt g (castFlt f g x) := by
  cases x with
  | fin neg m E =>
    simp only [castFlt]
    split
    · trivial
    · exact ⟨nearest_canon g hg (pow_pos2 _), by omega⟩
  | inf neg => trivial
  | nan neg => trivial

/-- A value that is converted to a wider type and back is not changed. -/
theorem cast_back {f g : FKind} (w : Widens f g) {x : Flt} (h : IsFlt f x) : castFlt g f (castFlt f g x) = x := by
  cases x with
  | fin neg m E =>
    obtain ⟨m', E', e, -, hv⟩ := widen_fin w h
    rw [e]
    have hn : nearest f (m' * 2 ^ E' * 2 ^ f.q) (2 ^ g.q) = (m, E) := by
      have h1 : nearest f (m' * 2 ^ E' * 2 ^ f.q) (2 ^ g.q) = nearest f (m * 2 ^ E * 1) 1 := by
        refine nearest_ratio f (pow_pos2 _) (by omega) ?_
        rw [hv, Nat.mul_one, Nat.mul_one, Nat.mul_assoc (m * 2 ^ E), ← Nat.pow_add]
        congr 2
        have := w.q
        omega
      rw [h1, nearest_exact f w.pos h.1 (by omega)]
    simp only [castFlt, hn]
    rw [if_neg (by have := h.2; omega)]
  | inf neg => rfl
  | nan neg => rfl

theorem cast_same {f : FKind} (hp : 0 < f.prec) {x : Flt} (h : IsFlt f x) : castFlt f f x = x := by
  cases x with
  | fin neg m E =>
    have hn := nearest_exact f hp h.1 (pow_pos2 f.q)
    simp only [castFlt, hn]
    rw [if_neg (by have := h.2; omega)]
  | inf neg => rfl
  | nan neg => rfl

/-! ### The 64 bits -/

theorem doubleBits_lt {x : Flt} (h : IsFlt f64 x) : doubleBits x < 2 ^ 64 := by
  cases x with
  | fin neg m E =>
    obtain ⟨⟨h1, -⟩, h3⟩ := h
    simp only [f64] at h1 h3
    simp only [doubleBits]
    split <;> split <;> omega
  | inf neg => cases neg <;> decide
  | nan neg => cases neg <;> decide

theorem doubleBits_binary64 {x : Flt} (h : IsFlt f64 x) : Binary64 (doubleBits x) x := by
  cases x with
  | fin neg m E =>
    obtain ⟨⟨h1, h2⟩, h3⟩ := h
    simp only [f64] at h1 h2 h3
    simp only [doubleBits]
    by_cases hm : m < 2 ^ 52
    · have hE : E = 0 := by omega
      subst hE
      exact ⟨neg, 0, m, by omega, hm, by rw [if_pos hm]; omega, by simp⟩
    · refine ⟨neg, E + 1, m - 2 ^ 52, by omega, by omega, by rw [if_neg hm]; omega, ?_⟩
      rw [if_neg (by omega), if_neg (by omega), show 2 ^ 52 + (m - 2 ^ 52) = m by omega]
      rfl
  | inf neg => exact ⟨neg, 2047, 0, by omega, by omega, rfl, by simp⟩
  | nan neg => exact ⟨neg, 2047, 2 ^ 51, by omega, by omega, rfl, by simp⟩

theorem bitsDouble_binary64 {b : Nat} {x : Flt} (h : Binary64 b x) : bitsDouble b = x := by
  obtain ⟨s, e, fr, h1, h2, h3, rfl⟩ := h
  have a1 : decide (b / 2 ^ 63 % 2 = 1) = s := by
    cases s <;> simp only [Bool.false_eq_true, if_false, if_true] at h3 <;> simp <;> omega
  have a2 : b / 2 ^ 52 % 2048 = e := by split at h3 <;> omega
  have a3 : b % 2 ^ 52 = fr := by split at h3 <;> omega
  simp only [bitsDouble, a1, a2, a3]
  by_cases e0 : e = 0
  · subst e0; simp
  · by_cases e1 : e = 2047
    · subst e1; simp
    · rw [if_neg e1, if_neg e0, if_neg e0, if_neg e1, Nat.add_comm]

theorem bits_back {x : Flt} (h : IsFlt f64 x) : bitsDouble (doubleBits x) = x := bitsDouble_binary64 (doubleBits_binary64 h)

end Thors
