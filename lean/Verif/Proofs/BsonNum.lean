import Verif.Model.BsonParser
import Verif.Spec.Bson
/-
Integers as bytes, decimal index keys.
-/
namespace Thors
open Spec StrIn

theorem leBytes_length : ∀ (n : Nat) (v : Int), (leBytes n v).length = n
  | 0, _ => rfl
  | n + 1, v => by simp [leBytes, leBytes_length n]

theorem leBytes_eq_le : ∀ (n : Nat) (v : Int), leBytes n v = le n v
  | 0, _ => rfl
  | n + 1, v => by
    rw [leBytes, leBytes_eq_le n, le, le, List.range_succ_eq_map]
    simp only [List.map_cons, List.map_map, Int.pow_zero, Int.ediv_one, List.cons.injEq, true_and]
    apply List.map_congr_left
    intro j _
    simp only [Function.comp]
    rw [Int.ediv_ediv_of_nonneg (by decide), Int.pow_succ, Int.mul_comm]

theorem le_length (n : Nat) (v : Int) : (le n v).length = n := by simp [le]

/-- The unsigned value of the representation is the number modulo 256^n. -/
theorem leNat_leBytes : ∀ (n : Nat) (v : Int), (leNat (leBytes n v) : Int) = v % 256 ^ n
  | 0, v => by simp [leBytes, leNat, Int.emod_one]
  | n + 1, v => by
    have h1 : 0 ≤ v % 256 := Int.emod_nonneg _ (by decide)
    have h2 : v % 256 < 256 := Int.emod_lt_of_pos _ (by decide)
    have hb : (UInt8.ofNat (v % 256).toNat).toNat = (v % 256).toNat := by
      rw [UInt8.toNat_ofNat']; omega
    rw [leBytes, leNat, hb, Int.natCast_add, Int.natCast_mul]
    rw [Int.toNat_of_nonneg h1, leNat_leBytes n, show ((256 : Nat) : Int) = 256 from rfl]
    have hp : (0 : Int) < 256 ^ n := Int.pow_pos (by decide)
    have e : v = 256 * (v / 256) + v % 256 := (Int.mul_ediv_add_emod v 256).symm
    have e2 : v / 256 = 256 ^ n * (v / 256 / 256 ^ n) + (v / 256) % 256 ^ n := (Int.mul_ediv_add_emod _ _).symm
    generalize v / 256 = q at e e2 ⊢
    generalize hr : q % 256 ^ n = r at e2 ⊢
    have hr1 : 0 ≤ r := by rw [← hr]; exact Int.emod_nonneg _ (by omega)
    have hr2 : r < 256 ^ n := by rw [← hr]; exact Int.emod_lt_of_pos _ hp
    generalize q / 256 ^ n = k at e2
    generalize v % 256 = b at *
    subst e e2
    have hm : (256 : Int) ^ (n + 1) * k = 256 * (256 ^ n * k) := by
      rw [Int.pow_succ, Int.mul_comm (256 ^ n) 256, Int.mul_assoc]
    have : (256 * (256 ^ n * k + r) + b : Int) = (b + 256 * r) + 256 ^ (n + 1) * k := by
      rw [hm]; omega
    rw [this, Int.add_mul_emod_self_left, Int.emod_eq_of_lt (by omega)]
    rw [Int.pow_succ]
    omega

theorem pow_256 (n : Nat) : (256 : Int) ^ n = 2 ^ (8 * n) := by
  rw [Int.pow_mul]; rfl

/-- `readLE` recovers every number that fits. -/
theorem leInt_leBytes (n : Nat) (v : Int) (h1 : -(2 ^ (8 * n)) ≤ 2 * v) (h2 : 2 * v < 2 ^ (8 * n)) : leInt (leBytes n v) = v := by
  have hv := leNat_leBytes n v
  rw [pow_256] at hv
  unfold leInt
  rw [leBytes_length]
  have hp : (0 : Int) < 2 ^ (8 * n) := Int.pow_pos (by decide)
  have hc : ((2 ^ (8 * n) : Nat) : Int) = 2 ^ (8 * n) := by push_cast; rfl
  by_cases hneg : v < 0
  · have e : v % 2 ^ (8 * n) = v + 2 ^ (8 * n) := by
      rw [← Int.add_emod_right, Int.emod_eq_of_lt (by omega) (by omega)]
    rw [e] at hv
    rw [if_pos (by omega)]
    omega
  · have e : v % 2 ^ (8 * n) = v := Int.emod_eq_of_lt (by omega) (by omega)
    rw [e] at hv
    rw [if_neg (by omega)]
    omega

theorem leNat_lt (bs : Bytes) : leNat bs < 256 ^ bs.length := by
  induction bs with
  | nil => simp [leNat]
  | cons b bs ih =>
    have := b.toNat_lt
    simp only [leNat, List.length_cons, Nat.pow_succ]
    omega

/-- Bytes are the representation of their unsigned value. -/
theorem leBytes_leNat (bs : Bytes) : leBytes bs.length (leNat bs : Int) = bs := by
  induction bs with
  | nil => rfl
  | cons b bs ih =>
    have hb := b.toNat_lt
    simp only [leNat, List.length_cons, leBytes]
    have e1 : ((b.toNat + 256 * leNat bs : Nat) : Int) % 256 = b.toNat := by omega
    have e2 : ((b.toNat + 256 * leNat bs : Nat) : Int) / 256 = leNat bs := by omega
    rw [e1, e2, ih]
    simp

/-- The representation depends on the number modulo 256^n only. -/
theorem leBytes_sub (n : Nat) : ∀ v : Int, leBytes n (v - 256 ^ n) = leBytes n v := by
  induction n with
  | zero => intro v; rfl
  | succ n ih =>
    intro v
    have e : (256 : Int) ^ (n + 1) = 256 * 256 ^ n := by rw [Int.pow_succ, Int.mul_comm]
    simp only [leBytes]
    have e1 : (v - 256 ^ (n + 1)) % 256 = v % 256 := by rw [e]; omega
    have e2 : (v - 256 ^ (n + 1)) / 256 = v / 256 - 256 ^ n := by rw [e]; omega
    rw [e1, e2, ih]

/-- Writing what was read gives the same bytes. -/
theorem leBytes_leInt (bs : Bytes) : leBytes bs.length (leInt bs) = bs := by
  unfold leInt
  split
  · rw [← pow_256, leBytes_sub, leBytes_leNat]
  · exact leBytes_leNat bs

theorem leBytes_take : ∀ (n m : Nat) (v : Int), m ≤ n → (leBytes n v).take m = leBytes m v
  | _, 0, _, _ => by simp [leBytes]
  | 0, m + 1, _, h => by omega
  | n + 1, m + 1, v, h => by simp [leBytes, leBytes_take n m _ (by omega)]

theorem beBytes_eq {width size : Nat} (h : size ≤ width) (v : Int) : beBytes width size v = (leBytes size v).reverse := by
  rw [beBytes, ← leBytes_take width size v h, List.drop_reverse, leBytes_length]
  congr 2
  omega

/-- A small non-negative number has zeros at the top. -/
theorem leBytes_zeros : ∀ (n m : Nat) (v : Int), 0 ≤ v → v < 256 ^ n → leBytes (n + m) v = leBytes n v ++ List.replicate m 0x00
  | 0, m, v, h1, h2 => by
    have hv : v = 0 := by simp at h2; omega
    subst hv
    simp only [Nat.zero_add, leBytes, List.nil_append]
    induction m with
    | zero => rfl
    | succ m ih => rw [leBytes]; simp [List.replicate_succ, ih]
  | n + 1, m, v, h1, h2 => by
    rw [show n + 1 + m = (n + m) + 1 by omega, leBytes, leBytes, List.cons_append]
    have e : (256 : Int) ^ (n + 1) = 256 * 256 ^ n := by rw [Int.pow_succ, Int.mul_comm]
    rw [leBytes_zeros n m (v / 256) (by omega) (by omega)]

/-- A cast to a type the number fits in does not change it. -/
theorem castTo_fits {k : IntKind} {v : Int} (hk : 0 < k.bits) (h : k.fits v) : castTo k v = v := by
  obtain ⟨h1, h2⟩ := h
  obtain ⟨b, sg⟩ := k
  simp only at hk
  have hp : (0 : Int) < 2 ^ b := Int.pow_pos (by decide)
  obtain ⟨c, rfl⟩ : ∃ c, b = c + 1 := ⟨b - 1, by omega⟩
  have hs : (2 : Int) ^ (c + 1) = 2 * 2 ^ c := by rw [Int.pow_succ, Int.mul_comm]
  cases sg with
  | false =>
    simp only [IntKind.lo, IntKind.hi, Bool.false_eq_true, if_false] at h1 h2
    simp only [castTo, Bool.false_eq_true, false_and, if_false]
    exact Int.emod_eq_of_lt h1 (by omega)
  | true =>
    simp only [IntKind.lo, IntKind.hi, if_true, Nat.add_sub_cancel] at h1 h2
    simp only [castTo, true_and]
    by_cases hn : v < 0
    · have e : v % 2 ^ (c + 1) = v + 2 ^ (c + 1) := by
        rw [← Int.add_emod_right, Int.emod_eq_of_lt (by omega) (by omega)]
      rw [e, if_pos (by omega)]
      omega
    · have e : v % 2 ^ (c + 1) = v := Int.emod_eq_of_lt (by omega) (by omega)
      rw [e, if_neg (by omega)]

theorem castTo_mod (k : IntKind) (v w : Int) (h : v % 2 ^ k.bits = w % 2 ^ k.bits) : castTo k v = castTo k w := by
  simp only [castTo, h]

/-! ### Decimal keys -/

theorem digitChar_byte : ∀ d : Nat, d < 10 → UInt8.ofNat (d.digitChar).toNat = UInt8.ofNat (0x30 + d) := by decide

theorem natText_decimal (n : Nat) : natText n = decimal n := by
  induction n using Nat.strongRecOn with
  | _ n ih =>
    rw [natText]
    split
    · rename_i h
      simp [decimal, Nat.toDigits_of_lt_base h, digitChar_byte n h]
    · rename_i h
      have hd := Nat.toDigits_of_base_le (b := 10) (n := n) (by decide) (by omega)
      rw [ih (n / 10) (by omega), decimal, decimal, hd, List.map_append, List.map_cons, List.map_nil, digitChar_byte (n % 10) (by omega)]

theorem decimal_length_small {n : Nat} (h : n < 10) : (decimal n).length = 1 := by
  simp [decimal, Nat.toDigits_of_lt_base h]

theorem decimal_length_big {n : Nat} (h : 10 ≤ n) : (decimal n).length = (decimal (n / 10)).length + 1 := by
  rw [decimal, Nat.toDigits_of_base_le (by decide) h]
  simp [decimal]

/-- Numbers between two powers of ten have that many digits. -/
theorem decimal_length (d : Nat) : ∀ n, (d = 0 ∨ 10 ^ d ≤ n) → n < 10 ^ (d + 1) → (decimal n).length = d + 1 := by
  induction d with
  | zero => intro n _ h; exact decimal_length_small (by omega)
  | succ d ih =>
    intro n h1 h2
    have h1 := h1.resolve_left (by omega)
    have hp : 0 < 10 ^ d := Nat.pow_pos (by decide)
    rw [Nat.pow_succ] at h1 h2
    rw [decimal_length_big (by omega), ih (n / 10) (.inr (by omega)) (by omega)]

/-- Total length of the decimal keys below `n`. -/
def keyLengths (n : Nat) : Nat := ((List.range n).map fun i => (decimal i).length).sum

theorem keyLengths_succ (n : Nat) : keyLengths (n + 1) = keyLengths n + (decimal n).length := by
  simp [keyLengths, List.range_succ]

theorem keyLengths_add (d a : Nat) : ∀ m, (∀ i, a ≤ i → i < a + m → (decimal i).length = d) → keyLengths (a + m) = keyLengths a + m * d
  | 0, _ => by simp
  | m + 1, h => by
    rw [← Nat.add_assoc, keyLengths_succ, keyLengths_add d a m (fun i h1 h2 => h i h1 (by omega)), h (a + m) (by omega) (by omega)]
    rw [Nat.succ_mul]; omega

theorem indexLoop_eq (count : Nat) : ∀ (d acc next total : Nat) (h : 0 < next), next = 10 ^ (d + 1) → acc = (if d = 0 then 0 else 10 ^ d) →
    acc ≤ count → total = keyLengths acc → BPrint.indexLoop count total acc next (d + 1) h = keyLengths count := by
  intro d acc next total h
  induction hm : count + 1 - next using Nat.strongRecOn generalizing d acc next total with
  | _ m ih =>
    intro hn ha hc ht
    have hlen : ∀ i, acc ≤ i → i < next → (decimal i).length = d + 1 := by
      intro i h1 h2
      apply decimal_length d i
      · by_cases hd : d = 0
        · exact .inl hd
        · rw [if_neg hd] at ha; exact .inr (by omega)
      · omega
    rw [BPrint.indexLoop]
    split
    · rename_i hle
      have han : acc ≤ next := by
        rw [hn, ha]; split
        · omega
        · exact Nat.pow_le_pow_right (by decide) (by omega)
      refine ih _ ?_ (d + 1) next (next * 10) _ _ rfl (by rw [hn, Nat.pow_succ _ (d + 1)]) (by rw [if_neg (by omega)]; exact hn) hle ?_
      · omega
      · have := keyLengths_add (d + 1) acc (next - acc) (fun i h1 h2 => hlen i h1 (by omega))
        rw [ht, ← this]; congr 1; omega
    · have := keyLengths_add (d + 1) acc (count - acc) (fun i h1 h2 => hlen i h1 (by omega))
      rw [ht, ← this]; congr 1; omega

theorem indexLoop_keys (n : Nat) : BPrint.indexLoop n 0 0 10 1 (by omega) = keyLengths n :=
  indexLoop_eq n 0 0 10 0 _ rfl rfl (by omega) rfl

end Thors
