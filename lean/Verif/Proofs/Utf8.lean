import Verif.Spec.Utf8
/-
`Spec.utf8` agrees with Lean's own UTF-8 encoder on every Unicode scalar value, and is injective on
the supplementary planes.
-/
namespace Thors.Spec

theorem utf8_eq_lean (c : Char) : utf8 c.toNat = String.utf8EncodeChar c := by
  have hv : c.toNat < 0x110000 := by
    have := c.valid
    simp only [UInt32.isValidChar, Nat.isValidChar] at this
    have e : c.toNat = c.val.toNat := rfl
    omega
  simp only [utf8, String.utf8EncodeChar]
  have e : c.val.toNat = c.toNat := rfl
  rw [e]
  generalize c.toNat = v at hv
  by_cases h1 : v < 0x80
  · rw [if_pos h1, if_pos (show v ≤ 127 by omega)]
  rw [if_neg h1, if_neg (show ¬ v ≤ 127 by omega)]
  by_cases h2 : v < 0x800
  · rw [if_pos h2, if_pos (show v ≤ 2047 by omega),
      show 0xC0 + v / 64 = v / 64 % 32 + 192 by omega, show 0x80 + v % 64 = v % 64 + 128 by omega]
  rw [if_neg h2, if_neg (show ¬ v ≤ 2047 by omega)]
  by_cases h3 : v < 0x10000
  · rw [if_pos h3, if_pos (show v ≤ 65535 by omega), show 0xE0 + v / 4096 = v / 4096 % 16 + 224 by omega,
      show 0x80 + v / 64 % 64 = v / 64 % 64 + 128 by omega, show 0x80 + v % 64 = v % 64 + 128 by omega]
  rw [if_neg h3, if_neg (show ¬ v ≤ 65535 by omega), show 0xF0 + v / 262144 = v / 262144 % 8 + 240 by omega,
    show 0x80 + v / 4096 % 64 = v / 4096 % 64 + 128 by omega,
    show 0x80 + v / 64 % 64 = v / 64 % 64 + 128 by omega, show 0x80 + v % 64 = v % 64 + 128 by omega]

theorem utf8_inj_supp {a b : Nat} (ha : 0x10000 ≤ a) (ha2 : a < 0x110000) (hb : 0x10000 ≤ b) (hb2 : b < 0x110000)
    (h : utf8 a = utf8 b) : a = b := by
  simp only [utf8] at h
  rw [if_neg (show ¬ a < 0x80 by omega), if_neg (show ¬ a < 0x800 by omega), if_neg (show ¬ a < 0x10000 by omega),
      if_neg (show ¬ b < 0x80 by omega), if_neg (show ¬ b < 0x800 by omega), if_neg (show ¬ b < 0x10000 by omega)] at h
  simp only [List.cons.injEq, and_true, ← UInt8.toNat_inj, UInt8.toNat_ofNat'] at h
  obtain ⟨h1, h2, h3, h4⟩ := h
  omega

end Thors.Spec
