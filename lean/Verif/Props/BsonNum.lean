import Verif.Proofs.BsonNum
/-
C29 (space for BSON array keys) and C32 (fixed width integer encodings).
-/
namespace Thors.Props
open Thors Spec StrIn

/-- **C29.** For every array length `n`, the size computed for the array before its values are added is what
its length field (4 bytes), its terminator, and for each index `i < n` the type byte, the decimal digits of
`i` and the NUL behind them take. -/
theorem C29_index_keys (n : Nat) :
    BPrint.sizeArray n = 4 + ((List.range n).map fun i => 1 + (decimal i).length + 1).sum + 1 := by
  have h : ∀ n, ((List.range n).map fun i => 1 + (decimal i).length + 1).sum = n * 2 + keyLengths n := by
    intro n
    induction n with
    | zero => rfl
    | succ n ih => rw [List.range_succ, List.map_append, List.sum_append, ih, keyLengths_succ]; simp; omega
  rw [BPrint.sizeArray, indexLoop_keys, h]
  omega

/-- The key written for element number `i` of an array is the decimal text of `i`, and the next element gets
the next number. -/
theorem C29_index_written (type : Byte) (size : Option Nat) (cs : List BCont) (i : Nat) (is : List Nat) (key : Bytes) :
    BPrint.writeKey type size ⟨.Array :: cs, i :: is, key⟩ =
      .ok ([.chars [type], .chars (decimal i), .chars [0x00]], ⟨.Array :: cs, (i + 1) :: is, key⟩) := by
  simp only [BPrint.writeKey, natText_decimal]

example : BPrint.sizeArray 101 = 4 + 101 * 2 + (10 * 1 + 90 * 2 + 1 * 3) + 1 := by
  simp [BPrint.sizeArray, BPrint.indexLoop]
example : decimal 100 = b!"100" := by decide

/-- Reading from a string that starts with these bytes. -/
theorem read_front (data pre bs post : Bytes) (good : Bool) (h : data = pre ++ bs ++ post) :
    StrIn.read ⟨data, pre.length, good⟩ bs.length = .ok (bs, true, ⟨data, pre.length + bs.length, true⟩) := by
  subst h
  rw [StrIn.read, if_neg (by simp; omega)]
  simp

/-- The value `v` fits `n` bytes in two's complement. -/
def fitsSigned (n : Nat) (v : Int) : Prop := -(2 ^ (8 * n - 1)) ≤ v ∧ v < 2 ^ (8 * n - 1)

theorem fitsSigned_double {n : Nat} {v : Int} (hn : 0 < n) (h : fitsSigned n v) : -(2 ^ (8 * n)) ≤ 2 * v ∧ 2 * v < 2 ^ (8 * n) := by
  obtain ⟨h1, h2⟩ := h
  have e : (2 : Int) ^ (8 * n) = 2 * 2 ^ (8 * n - 1) := by
    rw [show 8 * n = (8 * n - 1) + 1 by omega, Int.pow_succ, Int.mul_comm, Nat.add_sub_cancel]
  rw [e]
  omega

/-- **C32, little endian.** For every width `n` and every number that fits: `writeLE` writes the `n` bytes of
its two's complement representation, least significant first, and `readLE` reads the number back from them,
wherever they are in the input, and moves behind them. Conversely whatever `n` bytes `readLE` reads, `writeLE`
writes for the result. -/
theorem C32_little_endian (n : Nat) (hn : 0 < n) (pre post : Bytes) (good : Bool) :
    (∀ v, leBytes n v = le n v) ∧
    (∀ v, fitsSigned n v → readLE n ⟨pre ++ leBytes n v ++ post, pre.length, good⟩ =
      .ok (v, ⟨pre ++ leBytes n v ++ post, pre.length + n, true⟩)) ∧
    (∀ bs : Bytes, bs.length = n → ∃ v, fitsSigned n v ∧
      readLE n ⟨pre ++ bs ++ post, pre.length, good⟩ = .ok (v, ⟨pre ++ bs ++ post, pre.length + n, true⟩) ∧ leBytes n v = bs) := by
  refine ⟨leBytes_eq_le n, ?_, ?_⟩
  · intro v hv
    obtain ⟨h1, h2⟩ := fitsSigned_double hn hv
    have := read_front _ pre (leBytes n v) post good rfl
    rw [leBytes_length] at this
    rw [readLE, this]
    simp [leBytes_length, leInt_leBytes n v h1 h2]
  · intro bs hb
    refine ⟨leInt bs, ?_, ?_, ?_⟩
    · have hl := leNat_lt bs
      rw [hb] at hl
      have e8 : (256 : Nat) ^ n = 2 ^ (8 * n) := by rw [Nat.pow_mul]
      have e : (2 : Int) ^ (8 * n) = 2 * 2 ^ (8 * n - 1) := by
        rw [show 8 * n = (8 * n - 1) + 1 by omega, Int.pow_succ, Int.mul_comm, Nat.add_sub_cancel]
      have hc : ((2 ^ (8 * n) : Nat) : Int) = 2 ^ (8 * n) := by push_cast; rfl
      unfold fitsSigned leInt
      rw [hb]
      split <;> omega
    · have := read_front _ pre bs post good rfl
      rw [hb] at this
      rw [readLE, this]
      simp [hb]
    · rw [← hb]; exact leBytes_leInt bs

/-- **C32, big endian.** For every type width and every number of bytes up to it: `writeBE` writes the low
`size` bytes, most significant first. `readBE` reads back every number that fits: from 0 to 256^size - 1 if
fewer bytes are written than the type has, else every number of the type. Conversely whatever bytes `readBE`
reads, `writeBE` writes for the result. -/
theorem C32_big_endian (width size : Nat) (hs : size ≤ width) (hn : 0 < size) (pre post : Bytes) (good : Bool) :
    (∀ v, beBytes width size v = be size v) ∧
    (∀ v, (if size < width then 0 ≤ v ∧ v < 256 ^ size else fitsSigned width v) →
      readBE width size ⟨pre ++ beBytes width size v ++ post, pre.length, good⟩ =
        .ok (v, ⟨pre ++ beBytes width size v ++ post, pre.length + size, true⟩)) ∧
    (∀ bs : Bytes, bs.length = size → ∃ v,
      readBE width size ⟨pre ++ bs ++ post, pre.length, good⟩ = .ok (v, ⟨pre ++ bs ++ post, pre.length + size, true⟩) ∧
      beBytes width size v = bs) := by
  refine ⟨fun v => by rw [beBytes_eq hs, leBytes_eq_le, be], ?_, ?_⟩
  · intro v hv
    have hl : (beBytes width size v).length = size := by rw [beBytes_eq hs, List.length_reverse, leBytes_length]
    have := read_front _ pre (beBytes width size v) post good rfl
    rw [hl] at this
    rw [readBE, this]
    simp only [Res.ok_bind, Res.pure_eq, hl, Nat.sub_self, List.replicate_zero, List.reverse_append,
      List.reverse_replicate, Res.ok.injEq, Prod.mk.injEq, and_true]
    rw [beBytes_eq hs, List.reverse_reverse]
    split at hv
    · rename_i h
      have hz := leBytes_zeros size (width - size) v hv.1 hv.2
      rw [← hz, show size + (width - size) = width by omega]
      apply leInt_leBytes
      · have : (0 : Int) < 2 ^ (8 * width) := Int.pow_pos (by decide)
        omega
      · have h1 : (256 : Int) ^ (size + 1) ≤ 256 ^ width := by
          have : (256 : Nat) ^ (size + 1) ≤ 256 ^ width := Nat.pow_le_pow_right (by decide) (by omega)
          have c := Int.ofNat_le.2 this
          rwa [Int.natCast_pow, Int.natCast_pow] at c
        rw [← pow_256]
        rw [Int.pow_succ] at h1
        omega
    · have he : size = width := by omega
      subst he
      simp only [Nat.sub_self, List.replicate_zero, List.append_nil]
      obtain ⟨h1, h2⟩ := fitsSigned_double hn hv
      exact leInt_leBytes size v h1 h2
  · intro bs hb
    refine ⟨leInt (bs.reverse ++ List.replicate (width - size) 0x00), ?_, ?_⟩
    · have := read_front _ pre bs post good rfl
      rw [hb] at this
      rw [readBE, this]
      simp [hb]
    · have h := leBytes_leInt (bs.reverse ++ List.replicate (width - size) 0x00)
      have hw : (bs.reverse ++ List.replicate (width - size) 0x00).length = width := by simp [hb]; omega
      rw [hw] at h
      rw [beBytes, h]
      simp

example : fitsSigned 4 (-2 ^ 31) ∧ le 4 (-2) = [0xFE, 0xFF, 0xFF, 0xFF] := by unfold fitsSigned; decide
example : beBytes 8 5 0x123456789A = [0x12, 0x34, 0x56, 0x78, 0x9A] := by decide

/-- What `readLE` makes of fewer bytes than it wants is indeterminate: the reads are not checked. -/
theorem C32_short_read_indeterminate : readLE 4 (StrIn.ofBytes [0x01, 0x02]) = .ub := by decide

end Thors.Props
