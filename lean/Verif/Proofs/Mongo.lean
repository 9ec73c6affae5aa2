import Verif.Model.Mongo
import Verif.Proofs.BsonNum
import Verif.Spec.Hex
/-
Hexadecimal text and the Mongo types.
-/
namespace Thors
open Spec StrIn

/-- `w` digits, most significant first. -/
def hexFixed : Nat → Nat → Bytes
  | 0, _ => []
  | w + 1, n => hexDigit (n / 16 ^ w) :: hexFixed w (n % 16 ^ w)

theorem hexFixed_length : ∀ w n, (hexFixed w n).length = w
  | 0, _ => rfl
  | w + 1, n => by simp [hexFixed, hexFixed_length w]

theorem hexFixed_snoc : ∀ w n, n < 16 ^ (w + 1) → hexFixed (w + 1) n = hexFixed w (n / 16) ++ [hexDigit (n % 16)]
  | 0, n, h => by
    simp at h
    simp only [hexFixed, Nat.pow_zero, Nat.div_one, List.nil_append]
    rw [Nat.mod_eq_of_lt h]
  | w + 1, n, h => by
    have hp : 0 < 16 ^ w := Nat.pow_pos (by decide)
    have e : (16 : Nat) ^ (w + 1) = 16 * 16 ^ w := by rw [Nat.pow_succ, Nat.mul_comm]
    rw [hexFixed, hexFixed_snoc w (n % 16 ^ (w + 1)) (Nat.mod_lt _ (Nat.pow_pos (by decide)))]
    rw [hexFixed, List.cons_append]
    congr 1
    · congr 1; rw [e, Nat.div_div_eq_div_mul]
    · congr 1
      · congr 1
        rw [e, Nat.mod_mul_right_div_self]
      · rw [e, Nat.mod_mul_right_mod]

theorem hexText_pad : ∀ (w n : Nat), n < 16 ^ (w + 1) →
    (hexText n).length ≤ w + 1 ∧ List.replicate (w + 1 - (hexText n).length) 0x30 ++ hexText n = hexFixed (w + 1) n := by
  intro w
  induction w with
  | zero =>
    intro n h
    simp at h
    rw [hexText, dif_pos h]
    simp [hexFixed]
  | succ w ih =>
    intro n h
    rw [hexFixed_snoc _ _ h]
    by_cases h16 : n < 16
    · have e : n / 16 = 0 := by omega
      have := ih 0 (Nat.pow_pos (by decide))
      rw [hexText, dif_pos (by decide)] at this
      rw [hexText, dif_pos h16, e, ← this.2, Nat.mod_eq_of_lt h16]
      refine ⟨by simp, ?_⟩
      have hz : hexDigit 0 = 0x30 := by decide
      rw [hz]
      simp [List.replicate_succ']
    · obtain ⟨h1, h2⟩ := ih (n / 16) (by rw [Nat.pow_succ] at h; omega)
      rw [hexText, dif_neg h16, ← h2]
      simp only [List.length_append, List.length_cons, List.length_nil]
      refine ⟨by omega, ?_⟩
      rw [show w + 1 + 1 - ((hexText (n / 16)).length + (0 + 1)) = w + 1 - (hexText (n / 16)).length by omega, List.append_assoc]

theorem setwHex_fixed (w bits : Nat) (v : Int) (h : (v % (2 ^ bits : Int)).toNat < 16 ^ (w + 1)) :
    setwHex (w + 1) bits v = hexFixed (w + 1) (v % (2 ^ bits : Int)).toNat := (hexText_pad w _ h).2

theorem hexDigit_facts : ∀ d, d < 16 → isSpace (hexDigit d) = false ∧ hexDigit d ≠ 0x2D ∧ oidDigit (hexDigit d) = d ∧
    isHexDigit (hexDigit d) = true ∧ hexDigit d = hexAlphabet.getD d 0 ∧ hexDigit d ≠ 0x2B ∧ hexDigit d ≠ 0x78 ∧ hexDigit d ≠ 0x58 := by
  decide

theorem extractChar_digit (c : Option Byte) (d : Nat) (hd : d < 16) (s : Bytes) :
    extractChar c (hexDigit d :: s) = (some (hexDigit d), s) := by
  rw [extractChar, List.dropWhile_cons_of_neg (by simp [(hexDigit_facts d hd).1])]

theorem readHexLoop_fixed (dash : Bool) (rest : Bytes) : ∀ (n k : Nat) (loop : Nat) (c : Option Byte) (v r : Nat),
    v < 16 ^ n → r < 16 ^ k → k + n ≤ 15 →
    readHexLoop dash n loop c (hexFixed n v ++ rest) r = .ok (((r * 16 ^ n + v : Nat) : Int), rest)
  | 0, k, loop, c, v, r, hv, hr, hk => by
    have : v = 0 := by simp at hv; omega
    subst this
    simp [readHexLoop, hexFixed]
  | n + 1, k, loop, c, v, r, hv, hr, hk => by
    have hp : 0 < 16 ^ n := Nat.pow_pos (by decide)
    have e : (16 : Nat) ^ (n + 1) = 16 ^ n * 16 := Nat.pow_succ _ _
    have hd : v / 16 ^ n < 16 := by rw [Nat.div_lt_iff_lt_mul hp]; omega
    obtain ⟨f1, f2, f3, -⟩ := hexDigit_facts _ hd
    have hk1 : (16 : Nat) ^ (k + 1) ≤ 16 ^ 15 := Nat.pow_le_pow_right (by decide) (by omega)
    have ek : (16 : Nat) ^ (k + 1) = 16 ^ k * 16 := Nat.pow_succ _ _
    have hb : (16 : Nat) ^ 15 < 2 ^ 64 := by decide
    rw [hexFixed, List.cons_append, readHexLoop, extractChar_digit _ _ hd]
    simp only [Option.some.injEq, f2, false_and, if_false]
    rw [f3]
    have e1 : ∀ q : Nat, q < 16 → ((r : Int) * 16 + (q : Int)) % 2 ^ 64 = ((r * 16 + q : Nat) : Int) := by
      intro q hq
      clear f1 f2 f3
      rw [Int.emod_eq_of_lt (by omega) (by omega)]; omega
    rw [e1 _ hd, readHexLoop_fixed dash rest n (k + 1) (loop + 1) _ (v % 16 ^ n) (r * 16 + v / 16 ^ n) (Nat.mod_lt _ hp) (by omega) (by omega)]
    congr 2
    have := Nat.div_add_mod v (16 ^ n)
    have e2 : (r * 16 + v / 16 ^ n) * 16 ^ n = r * 16 ^ (n + 1) + 16 ^ n * (v / 16 ^ n) := by
      rw [Nat.add_mul, e, Nat.mul_assoc, Nat.mul_comm 16, Nat.mul_comm (v / 16 ^ n)]
    rw [e2]
    omega

theorem readNumberMaxLen_fixed (n : Nat) (hn : n ≤ 14) (dash : Bool) (v : Nat) (hv : v < 16 ^ n) (rest : Bytes) :
    readNumberMaxLen n dash (hexFixed n v ++ rest) = .ok ((v : Int), rest) := by
  have := readHexLoop_fixed dash rest n 1 0 none v 0 hv (by decide) (by omega)
  simpa [readNumberMaxLen] using this

/-! ### Hex digits of big endian bytes -/

theorem hexOf_append (a b : Bytes) : hexOf (a ++ b) = hexOf a ++ hexOf b := by simp [hexOf]

theorem hexOf_one (n : Nat) (h : n < 256) : hexOf [UInt8.ofNat n] = [hexDigit (n / 16), hexDigit (n % 16)] := by
  have h1 := hexDigit_facts (n / 16) (by omega)
  have h2 := hexDigit_facts (n % 16) (by omega)
  simp only [hexOf, List.flatMap_cons, List.flatMap_nil, List.append_nil, UInt8.toNat_ofNat', h1.2.2.2.2.1, h2.2.2.2.2.1]
  rw [show n % 2 ^ 8 = n from Nat.mod_eq_of_lt h]

theorem hexFixed_bytes : ∀ (k v : Nat), v < 256 ^ k → hexFixed (2 * k) v = hexOf (leBytes k v).reverse
  | 0, v, _ => rfl
  | k + 1, v, h => by
    have e : (256 : Nat) ^ (k + 1) = 256 ^ k * 256 := Nat.pow_succ _ _
    have e16 : ∀ j, (256 : Nat) ^ j = 16 ^ (2 * j) := fun j => by rw [Nat.pow_mul]
    have hv : v < 16 ^ (2 * k + 1 + 1) := by rw [show 2 * k + 1 + 1 = 2 * (k + 1) by omega, ← e16]; exact h
    rw [show 2 * (k + 1) = 2 * k + 1 + 1 by omega, hexFixed_snoc _ _ hv,
      hexFixed_snoc _ _ (by rw [Nat.pow_succ] at hv; omega), leBytes, List.reverse_cons, hexOf_append]
    have e1 : ((v : Int) % 256).toNat = v % 256 := by omega
    have e2 : ((v : Int) / 256) = ((v / 256 : Nat) : Int) := by omega
    rw [e1, e2, hexOf_one _ (Nat.mod_lt _ (by decide)), ← hexFixed_bytes k (v / 256) (by omega)]
    rw [show v / 16 / 16 = v / 256 by omega, show v % 256 / 16 = v / 16 % 16 by omega, show v % 256 % 16 = v % 16 by omega]
    simp

theorem leBytes_emod (n : Nat) : ∀ v : Int, leBytes n (v % 256 ^ n) = leBytes n v := by
  induction n with
  | zero => intro v; rfl
  | succ n ih =>
    intro v
    have e : (256 : Int) ^ (n + 1) = 256 * 256 ^ n := by rw [Int.pow_succ, Int.mul_comm]
    have hp : (0 : Int) < 256 ^ n := Int.pow_pos (by decide)
    simp only [leBytes]
    have e1 : (v % 256 ^ (n + 1)) % 256 = v % 256 := by
      rw [e, Int.emod_emod_of_dvd _ (Int.dvd_mul_right _ _)]
    have e2 : (v % 256 ^ (n + 1)) / 256 = (v / 256) % 256 ^ n := by
      rw [e]
      have h1 := Int.mul_ediv_add_emod v 256
      have h2 := Int.mul_ediv_add_emod (v / 256) (256 ^ n)
      have h0 := Int.emod_nonneg v (show (256 : Int) ≠ 0 by decide)
      have h0' := Int.emod_lt_of_pos v (show (0 : Int) < 256 by decide)
      have h3 := Int.emod_nonneg (v / 256) (show (256 ^ n : Int) ≠ 0 by omega)
      have h3' := Int.emod_lt_of_pos (v / 256) hp
      have : v % (256 * 256 ^ n) = 256 * ((v / 256) % 256 ^ n) + v % 256 := by
        have ev : v = (256 * ((v / 256) % 256 ^ n) + v % 256) + (256 * 256 ^ n) * (v / 256 / 256 ^ n) := by
          rw [Int.mul_assoc]; omega
        conv => lhs; rw [ev]
        rw [Int.add_mul_emod_self_left, Int.emod_eq_of_lt (by omega) (by omega)]
      rw [this]
      omega
    rw [e1, e2, ih]

/-- The hex text of a number in `k` bytes is the hex text of its big endian bytes. -/
theorem setwHex_bytes (k bits : Nat) (hk : 0 < k) (v : Int) (h : v % (2 ^ bits : Int) = v % 256 ^ k) :
    setwHex (2 * k) bits v = hexOf (leBytes k v).reverse := by
  have hp : (0 : Int) < 256 ^ k := Int.pow_pos (by decide)
  have h0 := Int.emod_nonneg v (show (256 ^ k : Int) ≠ 0 by omega)
  have h1 := Int.emod_lt_of_pos v hp
  have hc : ((256 ^ k : Nat) : Int) = 256 ^ k := by rw [Int.natCast_pow]; rfl
  have hlt : (v % 256 ^ k).toNat < 256 ^ k := by omega
  obtain ⟨j, hj⟩ : ∃ j, 2 * k = j + 1 := ⟨2 * k - 1, by omega⟩
  have e16 : (256 : Nat) ^ k = 16 ^ (j + 1) := by rw [← hj, Nat.pow_mul]
  rw [hj, setwHex_fixed _ _ _ (by rw [h, ← e16]; exact hlt), h, ← hj, hexFixed_bytes k _ hlt, Int.toNat_of_nonneg h0, leBytes_emod]


theorem hexDigit_lt : ∀ a, a < 16 → ∀ b, b < 16 → (hexDigit a < hexDigit b ↔ a < b) ∧ (hexDigit a = hexDigit b ↔ a = b) := by
  decide

/-- Texts of the same width compare like their numbers. -/
theorem keyLt_hexFixed (x y : Bytes) : ∀ (n a b : Nat), a < 16 ^ n → b < 16 ^ n →
    (keyLt (hexFixed n a ++ x) (hexFixed n b ++ y) = true ↔ a < b ∨ (a = b ∧ keyLt x y = true))
  | 0, a, b, ha, hb => by
    have : a = 0 := by simp at ha; omega
    have : b = 0 := by simp at hb; omega
    subst a b
    simp [hexFixed]
  | n + 1, a, b, ha, hb => by
    have hp : 0 < 16 ^ n := Nat.pow_pos (by decide)
    have e : (16 : Nat) ^ (n + 1) = 16 ^ n * 16 := Nat.pow_succ _ _
    have hda : a / 16 ^ n < 16 := by rw [Nat.div_lt_iff_lt_mul hp]; omega
    have hdb : b / 16 ^ n < 16 := by rw [Nat.div_lt_iff_lt_mul hp]; omega
    obtain ⟨h1, h2⟩ := hexDigit_lt _ hda _ hdb
    have ih := keyLt_hexFixed x y n (a % 16 ^ n) (b % 16 ^ n) (Nat.mod_lt _ hp) (Nat.mod_lt _ hp)
    simp only [hexFixed, List.cons_append, keyLt, Bool.or_eq_true, Bool.and_eq_true, decide_eq_true_eq, h1, h2, ih]
    have ea := Nat.div_add_mod a (16 ^ n)
    have eb := Nat.div_add_mod b (16 ^ n)
    have la := Nat.mod_lt a hp
    have lb := Nat.mod_lt b hp
    generalize 16 ^ n = m at *
    generalize a / m = qa at *
    generalize b / m = qb at *
    generalize a % m = ra at *
    generalize b % m = rb at *
    rcases Nat.lt_trichotomy qa qb with h | h | h
    · have : m * (qa + 1) ≤ m * qb := Nat.mul_le_mul_left _ h
      rw [Nat.mul_add] at this
      constructor
      · intro _; left; omega
      · intro _; left; exact h
    · subst h
      have hab : a < b ↔ ra < rb := by omega
      have hab' : a = b ↔ ra = rb := by omega
      simp [hab, hab']
    · have : m * (qb + 1) ≤ m * qa := Nat.mul_le_mul_left _ h
      rw [Nat.mul_add] at this
      constructor
      · rintro (h' | ⟨h', -⟩) <;> omega
      · rintro (h' | ⟨h', -⟩) <;> omega

/-! ### Reading at a place in the input -/

theorem read_at (pre bs post : Bytes) (good : Bool) :
    StrIn.read ⟨pre ++ bs ++ post, pre.length, good⟩ bs.length = .ok (bs, true, ⟨pre ++ bs ++ post, pre.length + bs.length, true⟩) := by
  rw [StrIn.read, if_neg (by simp; omega)]
  simp

theorem readBE_at (width size : Nat) (hs : size ≤ width) (v : Int)
    (hv : if size < width then 0 ≤ v ∧ v < 256 ^ size else -(2 ^ (8 * width)) ≤ 2 * v ∧ 2 * v < 2 ^ (8 * width))
    (pre post : Bytes) (good : Bool) :
    readBE width size ⟨pre ++ beBytes width size v ++ post, pre.length, good⟩ =
      .ok (v, ⟨pre ++ beBytes width size v ++ post, pre.length + size, true⟩) := by
  have hl : (beBytes width size v).length = size := by rw [beBytes_eq hs, List.length_reverse, leBytes_length]
  have := read_at pre (beBytes width size v) post good
  rw [hl] at this
  rw [readBE, this]
  simp only [Res.ok_bind, Res.pure_eq, hl, Nat.sub_self, List.replicate_zero, List.reverse_append,
    List.reverse_replicate, Res.ok.injEq, Prod.mk.injEq, and_true]
  rw [beBytes_eq hs, List.reverse_reverse]
  split at hv
  · rename_i h
    have hz := leBytes_zeros size (width - size) v hv.1 hv.2
    rw [List.nil_append, ← hz, show size + (width - size) = width by omega]
    apply leInt_leBytes
    · have : (0 : Int) < 2 ^ (8 * width) := Int.pow_pos (by decide)
      omega
    · have h1 : (256 : Int) ^ (size + 1) ≤ 256 ^ width := by
        have : (256 : Nat) ^ (size + 1) ≤ 256 ^ width := Nat.pow_le_pow_right (by decide) (by omega)
        have c := Int.ofNat_le.2 this
        rwa [Int.natCast_pow, Int.natCast_pow] at c
      rw [← pow_256]
      rw [Int.pow_succ] at h1
      omega
  · have he : size = width := by omega
    subst he
    simp only [Nat.sub_self, List.replicate_zero, List.append_nil, List.nil_append]
    exact leInt_leBytes size v hv.1 hv.2

theorem beBytes_length (width size : Nat) (hs : size ≤ width) (v : Int) : (beBytes width size v).length = size := by
  rw [beBytes_eq hs, List.length_reverse, leBytes_length]

/-- What `readBE` returns for fewer bytes than the type has is not negative and below 256^size, whatever is read. -/
theorem leInt_zeros (bs : Bytes) (m : Nat) (hm : 0 < m) : leInt (bs ++ List.replicate m 0x00) = leNat bs := by
  have h : ∀ (bs : Bytes) (m : Nat), leNat (bs ++ List.replicate m 0x00) = leNat bs := by
    intro bs
    induction bs with
    | nil => intro m; induction m with
      | zero => rfl
      | succ m ih => simp only [List.nil_append] at ih; simp [List.replicate_succ, leNat, ih]
    | cons b bs ih => intro m; simp [leNat, ih]
  have hl := leNat_lt bs
  have h2 : (256 : Nat) ^ (bs.length + 1) ≤ 256 ^ (bs.length + m) := Nat.pow_le_pow_right (by decide) (by omega)
  have e8 : (256 : Nat) ^ (bs.length + m) = 2 ^ (8 * (bs.length + m)) := by rw [Nat.pow_mul]
  rw [Nat.pow_succ] at h2
  rw [leInt, h, List.length_append, List.length_replicate, if_neg (by omega)]

theorem readLE_at (n : Nat) (v : Int) (h1 : -(2 ^ (8 * n)) ≤ 2 * v) (h2 : 2 * v < 2 ^ (8 * n)) (pre post : Bytes) (good : Bool) :
    readLE n ⟨pre ++ leBytes n v ++ post, pre.length, good⟩ = .ok (v, ⟨pre ++ leBytes n v ++ post, pre.length + n, true⟩) := by
  have := read_at pre (leBytes n v) post good
  rw [leBytes_length] at this
  rw [readLE, this]
  simp [leBytes_length, leInt_leBytes n v h1 h2]

theorem upTo_notin (d : Byte) (x post : Bytes) (h : d ∉ x) : upTo d (x ++ d :: post) = x.length := by
  induction x with
  | nil => simp [upTo]
  | cons c cs ih =>
    simp only [List.mem_cons, not_or] at h
    rw [List.cons_append, upTo, if_neg (fun e => h.1 e.symm), ih h.2, List.length_cons]

theorem readTo_at (d : Byte) (x : Bytes) (h : d ∉ x) (pre post : Bytes) (good : Bool) :
    StrIn.readTo ⟨pre ++ x ++ d :: post, pre.length, good⟩ d =
      .ok (x, true, ⟨pre ++ x ++ d :: post, pre.length + (x.length + 1), true⟩) := by
  rw [StrIn.readTo, if_neg (by simp)]
  have e : (pre ++ x ++ d :: post).drop pre.length = x ++ d :: post := by simp [List.append_assoc]
  simp only [e, upTo_notin d x post h]
  simp only [List.take_left', List.length_append, List.length_cons, Res.ok.injEq, Prod.mk.injEq, true_and]
  have : decide (pre.length + (x.length + 1) ≤ pre.length + x.length + (post.length + 1)) = true := by
    rw [decide_eq_true_eq]; omega
  rw [this]
  simp

/-- Reading a custom element, if its reader consumes exactly the payload. -/
theorem bsonCustomRead_at {α : Type} (rd : StrIn → Res (α × StrIn)) (a : α) (pre b post : Bytes) (good : Bool) (s : BsonP) (l : Int) (ls : List Int)
    (hi : s.inp = ⟨pre ++ b ++ post, pre.length, good⟩) (hl : s.left = l :: ls)
    (hr : rd ⟨pre ++ b ++ post, pre.length, good⟩ = .ok (a, ⟨pre ++ b ++ post, pre.length + b.length, true⟩)) :
    bsonCustomRead rd s = .ok (a, { s with inp := ⟨pre ++ b ++ post, pre.length + b.length, true⟩, left := (l - b.length) :: ls }) := by
  simp only [bsonCustomRead, hi, hr, Res.ok_bind, BsonP.use, hl, Res.pure_eq]
  congr 4
  omega

/-! ### `stream >> std::hex >> v` -/

theorem hexFixed_digits : ∀ (w n : Nat), n < 16 ^ w → ∀ c ∈ hexFixed w n, ∃ d < 16, c = hexDigit d
  | 0, n, _, c, hc => by simp [hexFixed] at hc
  | w + 1, n, hn, c, hc => by
    have hp : 0 < 16 ^ w := Nat.pow_pos (by decide)
    rw [hexFixed, List.mem_cons] at hc
    rcases hc with rfl | hc
    · exact ⟨_, by rw [Nat.div_lt_iff_lt_mul hp, Nat.mul_comm, ← Nat.pow_succ]; exact hn, rfl⟩
    · exact hexFixed_digits w _ (Nat.mod_lt _ hp) c hc

theorem hexFixed_foldl : ∀ (w n : Nat) (a : Int), n < 16 ^ w → (hexFixed w n).foldl (fun a d => a * 16 + oidDigit d) a = a * 16 ^ w + n
  | 0, n, a, hn => by simp at hn; simp [hexFixed, hn]
  | w + 1, n, a, hn => by
    have hp : 0 < 16 ^ w := Nat.pow_pos (by decide)
    have hd : n / 16 ^ w < 16 := by rw [Nat.div_lt_iff_lt_mul hp, Nat.mul_comm, ← Nat.pow_succ]; exact hn
    rw [hexFixed, List.foldl_cons, hexFixed_foldl w _ _ (Nat.mod_lt _ hp), (hexDigit_facts _ hd).2.2.1, Int.add_mul, Int.pow_succ]
    have := Nat.div_add_mod n (16 ^ w)
    have e : ((16 ^ w : Nat) : Int) = 16 ^ w := by rw [Int.natCast_pow]; rfl
    have e2 : ((n / 16 ^ w : Nat) : Int) * 16 ^ w + ((n % 16 ^ w : Nat) : Int) = n := by
      rw [← e, ← Int.natCast_mul, ← Int.natCast_add, Nat.mul_comm, this]
    rw [Int.add_assoc, e2, Int.mul_assoc, Int.mul_comm 16]

/-- The text of a number has at least one digit, and no more than it needs. -/
theorem hexText_fixed : ∀ (k n : Nat), n < 16 ^ (k + 1) → ∃ w, w ≤ k ∧ n < 16 ^ (w + 1) ∧ hexText n = hexFixed (w + 1) n := by
  intro k
  induction k with
  | zero =>
    intro n h
    simp at h
    refine ⟨0, Nat.le_refl _, by simpa using h, ?_⟩
    rw [hexText, dif_pos h]
    simp [hexFixed]
  | succ k ih =>
    intro n h
    rcases Nat.lt_or_ge n 16 with h16 | h16
    · refine ⟨0, by omega, by simpa using h16, ?_⟩
      rw [hexText, dif_pos h16]
      simp [hexFixed]
    · have hq : n / 16 < 16 ^ (k + 1) := by rw [Nat.div_lt_iff_lt_mul (by decide), ← Nat.pow_succ]; exact h
      obtain ⟨w, hw, h1, h2⟩ := ih _ hq
      have h3 : n < 16 ^ (w + 1 + 1) := by rw [Nat.pow_succ, ← Nat.div_lt_iff_lt_mul (by decide)]; exact h1
      refine ⟨w + 1, by omega, h3, ?_⟩
      rw [hexText, dif_neg (by omega), h2, hexFixed_snoc (w + 1) n h3]

theorem extractHex_fixed (w n : Nat) (hn : n < 16 ^ (w + 1)) (h32 : n < 2 ^ 32) (c : Byte) (rest : Bytes) (hc : isHexDigit c = false) (hx : c ≠ 0x78 ∧ c ≠ 0x58) :
    extractHex (hexFixed (w + 1) n ++ c :: rest) = .ok ((n : Int), some (c :: rest)) := by
  have hp : 0 < 16 ^ w := Nat.pow_pos (by decide)
  have hd : n / 16 ^ w < 16 := by rw [Nat.div_lt_iff_lt_mul hp, Nat.mul_comm, ← Nat.pow_succ]; exact hn
  have hall := hexFixed_digits (w + 1) n hn
  have hnext : ∀ x ∈ (hexFixed w (n % 16 ^ w) ++ c :: rest).head?, x ≠ 0x78 ∧ x ≠ 0x58 := by
    intro x hx'
    cases hh : hexFixed w (n % 16 ^ w) with
    | nil => rw [hh] at hx'; simp at hx'; rw [← hx']; exact hx
    | cons y ys =>
      rw [hh] at hx'
      simp at hx'
      obtain ⟨d, hd, e⟩ := hexFixed_digits w _ (Nat.mod_lt _ hp) y (by rw [hh]; simp)
      rw [← hx', e]
      exact (hexDigit_facts d hd).2.2.2.2.2.2
  have hall' : ∀ x ∈ hexFixed (w + 1) n, isHexDigit x = true := by
    intro x hx
    obtain ⟨d, hd, rfl⟩ := hall x hx
    exact (hexDigit_facts d hd).2.2.2.1
  have htake : (hexFixed (w + 1) n ++ c :: rest).takeWhile isHexDigit = hexFixed (w + 1) n := by
    rw [List.takeWhile_append_of_pos hall', List.takeWhile_cons_of_neg (by simp [hc]), List.append_nil]
  have hdrop : (hexFixed (w + 1) n ++ c :: rest).dropWhile isHexDigit = c :: rest := by
    rw [List.dropWhile_append_of_pos hall', List.dropWhile_cons_of_neg (by simp [hc])]
  have hf := hexFixed_foldl (w + 1) n 0 hn
  have e : hexFixed (w + 1) n = hexDigit (n / 16 ^ w) :: hexFixed w (n % 16 ^ w) := rfl
  have f := hexDigit_facts _ hd
  rw [e] at htake hdrop hf ⊢
  rw [List.cons_append] at htake hdrop ⊢
  have hfst : ¬(hexDigit (n / 16 ^ w) = 0x2B ∨ hexDigit (n / 16 ^ w) = 0x2D ∨ (hexDigit (n / 16 ^ w) = 0x30 ∧
      ((hexFixed w (n % 16 ^ w) ++ c :: rest).head? = some 0x78 ∨ (hexFixed w (n % 16 ^ w) ++ c :: rest).head? = some 0x58))) := by
    rintro (h | h | ⟨-, h | h⟩)
    · exact f.2.2.2.2.2.1 h
    · exact f.2.1 h
    · exact (hnext _ h).1 rfl
    · exact (hnext _ h).2 rfl
  rw [extractHex, List.dropWhile_cons_of_neg (by simp [f.1])]
  simp only
  rw [if_neg hfst, htake, hdrop, if_neg (by simp), hf, if_pos (by simp; omega)]
  simp

end Thors
