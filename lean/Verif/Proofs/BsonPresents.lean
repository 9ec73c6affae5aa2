import Verif.Proofs.BsonNum
import Verif.Proofs.Presents
import Verif.Proofs.JsonInt
/-
The BSON parser presents the tree of a BSON document.
-/
namespace Thors
open Spec StrIn

/-- The input is in front of `rest`. -/
structure BIn (rest : Bytes) (inp : StrIn) : Prop where
  rest : inp.rest = rest
  pos : inp.pos ≤ inp.data.length
  good : inp.good = true

theorem BIn.read {bs rest : Bytes} {inp : StrIn} (h : BIn (bs ++ rest) inp) :
    ∃ inp', inp.read bs.length = .ok (bs, true, inp') ∧ BIn rest inp' := by
  obtain ⟨h1, h2, -⟩ := h
  unfold StrIn.rest at h1
  have hl : bs.length + rest.length = inp.data.length - inp.pos := by
    have := congrArg List.length h1
    simpa using this.symm
  refine ⟨{ inp with pos := inp.pos + bs.length, good := true }, ?_, ?_, ?_, rfl⟩
  · rw [StrIn.read, if_neg (by omega), h1]
    simp
    omega
  · show inp.data.drop (inp.pos + bs.length) = rest
    rw [← List.drop_drop, h1]
    simp
  · simp only; omega

theorem BIn.readLE {n : Nat} {v : Int} {rest : Bytes} {inp : StrIn} (h : BIn (le n v ++ rest) inp)
    (h1 : -(2 ^ (8 * n)) ≤ 2 * v) (h2 : 2 * v < 2 ^ (8 * n)) : ∃ inp', Thors.readLE n inp = .ok (v, inp') ∧ BIn rest inp' := by
  obtain ⟨inp', e, h'⟩ := h.read
  rw [le_length] at e
  refine ⟨inp', ?_, h'⟩
  rw [Thors.readLE, e, ← leBytes_eq_le]
  simp [leBytes_length, leInt_leBytes n v h1 h2]

theorem upTo_key {k rest : Bytes} (h : (0x00 : Byte) ∉ k) : upTo 0x00 (k ++ 0x00 :: rest) = k.length := by
  induction k with
  | nil => simp [upTo]
  | cons c cs ih =>
    simp only [List.mem_cons, not_or] at h
    rw [List.cons_append, upTo, if_neg (fun e => h.1 e.symm), ih h.2]
    simp

theorem BIn.readTo {k rest : Bytes} {inp : StrIn} (h : BIn (k ++ 0x00 :: rest) inp) (hk : (0x00 : Byte) ∉ k) :
    ∃ inp', inp.readTo 0x00 = .ok (k, true, inp') ∧ BIn rest inp' := by
  obtain ⟨h1, h2, -⟩ := h
  unfold StrIn.rest at h1
  have hl : k.length + (rest.length + 1) = inp.data.length - inp.pos := by
    have := congrArg List.length h1
    simpa using this.symm
  refine ⟨{ inp with pos := inp.pos + (k.length + 1), good := true }, ?_, ?_, ?_, rfl⟩
  · rw [StrIn.readTo, if_neg (by omega), h1, upTo_key hk]
    simp
    omega
  · show inp.data.drop (inp.pos + (k.length + 1)) = rest
    rw [← List.drop_drop, h1]
    simp
  · simp only; omega

theorem BIn.ignore {bs rest : Bytes} {inp : StrIn} {i : Int} (h : BIn (bs ++ rest) inp) (hi : i = bs.length) : BIn rest (inp.ignoreInt i) := by
  obtain ⟨h1, h2, -⟩ := h
  unfold StrIn.rest at h1
  have hl : bs.length + rest.length = inp.data.length - inp.pos := by
    have := congrArg List.length h1
    simpa using this.symm
  subst hi
  refine ⟨?_, ?_, ?_⟩
  · simp only [StrIn.ignoreInt, StrIn.rest, if_pos (Int.natCast_nonneg _), Int.toNat_natCast]
    rw [← List.drop_drop, h1]
    simp
  · simp only [StrIn.ignoreInt, if_pos (Int.natCast_nonneg _), Int.toNat_natCast]
    omega
  · simp only [StrIn.ignoreInt, if_pos (Int.natCast_nonneg _), Int.toNat_natCast]
    simp
    omega

namespace BsonP

/-- The token that ends a container. -/
def endTok : BCont → Tok
  | .Map => .MapEnd
  | .Array => .ArrayEnd
  | .Value => .DocEnd

/-- A state between two tokens. -/
structure BS (C : List BCont) (L Z : List Int) (n : Tok) (rest : Bytes) (s : BsonP) : Prop where
  inp : BIn rest s.inp
  conts : s.conts = C
  left : s.left = L
  size : s.size = Z
  next : s.next = n
  skip : s.skip = false

/-- A state in front of the next element, or of the end, of a container with `l` bytes left. -/
def Ready (c : BCont) (C : List BCont) (l : Int) (L Z : List Int) (rest : Bytes) (s : BsonP) : Prop :=
  ∃ s', s.settle = .ok s' ∧ BS (c :: C) (l :: L) Z (if l = 1 then endTok c else .Key) rest s'

theorem left_one {l : Int} (h1 : 1 ≤ l) (h2 : l < 2 ^ 31) : (l - 1) % (2 ^ 64 : Int) = 0 ↔ l = 1 := by omega

theorem endToken_eq {s : BsonP} {c : BCont} {C : List BCont} {l : Int} {L : List Int} (hc : s.conts = c :: C) (hl : s.left = l :: L)
    (h1 : 1 ≤ l) (h2 : l < 2 ^ 31) : s.endToken = .ok (if l = 1 then some (endTok c) else none) := by
  rw [endToken, hl]
  simp only [left_one h1 h2, hc]
  split
  · cases c <;> rfl
  · rfl

theorem ready_value {s : BsonP} {c : BCont} {C : List BCont} {l : Int} {L Z : List Int} {rest : Bytes} (hi : BIn rest s.inp)
    (hc : s.conts = c :: C) (hl : s.left = l :: L) (hz : s.size = Z) (hs : s.skip = true) (h1 : 1 ≤ l) (h2 : l < 2 ^ 31) :
    Ready c C l L Z rest s := by
  unfold Ready
  rw [settle, if_pos hs, endToken_eq hc hl h1 h2]
  by_cases h : l = 1
  · simp only [h, if_true, Res.ok_bind]
    exact ⟨_, rfl, hi, hc, by simp [hl, h], hz, rfl, rfl⟩
  · simp only [h, if_false, Res.ok_bind]
    exact ⟨_, rfl, hi, hc, hl, hz, rfl, rfl⟩

theorem use_eq {s : BsonP} {l : Int} {L : List Int} (h : s.left = l :: L) (n : Int) : s.use n = .ok { s with left := (l - n) :: L } := by
  rw [use, h]

/-! ### Scalars -/

section
variable {c : BCont} {C : List BCont} {r : Int} {L Z : List Int} {rest : Bytes} {s : BsonP}

/-- The state when a scalar was announced and has not been read. -/
structure AtVal (c : BCont) (C : List BCont) (r : Int) (L Z : List Int) (rest : Bytes) (x : BScalar) (s : BsonP) : Prop where
  inp : BIn (x.payload ++ rest) s.inp
  conts : s.conts = c :: C
  left : s.left = (x.payload.length + r) :: L
  size : s.size = Z
  skip : s.skip = true
  type : s.type = x.code
  lo : 1 ≤ r
  hi : x.payload.length + r < 2 ^ 31

/-- The state after all bytes of the scalar were read. -/
theorem AtVal.done {x : BScalar} (h : AtVal c C r L Z rest x s) {inp : StrIn} (hi : BIn rest inp) {l : Int} (hl : l = r) :
    Ready c C r L Z rest { s with inp := inp, left := l :: L } := by
  have := h.lo
  have := h.hi
  subst hl
  exact ready_value hi h.conts rfl h.size h.skip h.lo (by omega)

theorem AtVal.int32 {v : Int} (hv : (BScalar.int32 v).valid) (h : AtVal c C r L Z rest (.int32 v) s) :
    ∃ s', s.readInt 4 = .ok (v, s') ∧ Ready c C r L Z rest s' := by
  obtain ⟨inp', e, hi⟩ := h.inp.readLE (by have := hv.1; omega) (by have := hv.2; omega)
  refine ⟨_, ?_, h.done hi (l := (BScalar.int32 v).payload.length + r - 4) (by simp [BScalar.payload, le_length]; omega)⟩
  rw [readInt, use_eq h.left]
  simp only [Res.ok_bind, e]
  rfl

theorem AtVal.int64 {v : Int} (hv : (BScalar.int64 v).valid) (h : AtVal c C r L Z rest (.int64 v) s) :
    ∃ s', s.readInt 8 = .ok (v, s') ∧ Ready c C r L Z rest s' := by
  obtain ⟨inp', e, hi⟩ := h.inp.readLE (by have := hv.1; omega) (by have := hv.2; omega)
  refine ⟨_, ?_, h.done hi (l := (BScalar.int64 v).payload.length + r - 8) (by simp [BScalar.payload, le_length]; omega)⟩
  rw [readInt, use_eq h.left]
  simp only [Res.ok_bind, e]
  rfl

theorem leNat_unle (p : Bytes) : leNat p = unle p := by
  induction p with
  | nil => rfl
  | cons c cs ih => simp [leNat, unle, ih]

theorem leNat_below (bs : Bytes) : leNat bs < 2 ^ (8 * bs.length) := by
  induction bs with
  | nil => simp [leNat]
  | cons b bs ih =>
    have := b.toNat_lt
    have e : (2 : Nat) ^ (8 * (b :: bs).length) = 2 ^ (8 * bs.length) * 256 := by
      rw [List.length_cons, Nat.mul_add, Nat.pow_add]
    rw [leNat, e]
    omega

theorem leInt_bits {p : Bytes} (h : p.length = 8) : (leInt p % (2 ^ 64 : Int)).toNat = unle p := by
  have := leNat_below p
  rw [h] at this
  rw [leInt, h, ← leNat_unle]
  generalize leNat p = n at *
  split <;> omega

theorem AtVal.double {p : Bytes} (hv : (BScalar.fixed .double p).valid) (h : AtVal c C r L Z rest (.fixed .double p) s) :
    ∃ s', s.readDouble = .ok (payloadDouble p, s') ∧ Ready c C r L Z rest s' := by
  obtain ⟨inp', e, hi⟩ := h.inp.read
  have hw : p.length = 8 := hv
  refine ⟨_, ?_, h.done hi (l := (BScalar.fixed .double p).payload.length + r - 8) (by simp [BScalar.payload, hw]; omega)⟩
  have e' : s.inp.read 8 = .ok (p, true, inp') := by rw [← hw]; exact e
  rw [readDouble, e']
  simp only [Res.ok_bind]
  rw [use_eq (s := { s with inp := inp' }) h.left]
  simp only [Res.ok_bind]
  rw [if_neg (by simp), if_neg (by omega), leInt_bits hw]
  rfl

theorem AtVal.bool {b : Bool} (h : AtVal c C r L Z rest (.bool b) s) :
    ∃ s', s.readBool = .ok (b, s') ∧ Ready c C r L Z rest s' := by
  obtain ⟨inp', e, hi⟩ := h.inp.read
  refine ⟨_, ?_, h.done hi (l := (BScalar.bool b).payload.length + r - 1) (by simp [BScalar.payload]; omega)⟩
  have e' : s.inp.read 1 = .ok ((BScalar.bool b).payload, true, inp') := e
  rw [readBool, e']
  simp only [Res.ok_bind]
  rw [use_eq (s := { s with inp := inp' }) h.left]
  cases b <;> rfl

theorem AtVal.str {t : Bytes} (h : AtVal c C r L Z rest (.str t) s) (dst : Bytes) :
    ∃ s', s.readString dst = .ok (dst ++ t, s') ∧ Ready c C r L Z rest s' := by
  have hlen : (BScalar.str t).payload.length = 4 + t.length + 1 := by simp [BScalar.payload, le_length]; omega
  have h1 := h.lo
  have h2 := h.hi
  rw [hlen] at h2
  have hi := h.inp
  simp only [BScalar.payload, List.append_assoc] at hi
  obtain ⟨inp', e, hi⟩ := hi.readLE (by omega) (by omega)
  rw [← List.append_assoc] at hi
  obtain ⟨inp'', e', hi'⟩ := hi.read
  refine ⟨_, ?_, h.done hi' (l := (BScalar.str t).payload.length + r - 4 - (t.length + 1)) (by rw [hlen]; omega)⟩
  have e'' : inp'.read ((t.length : Int) + 1).toNat = .ok (t ++ [0x00], true, inp'') := by
    rw [← e']; congr 1; simp
  rw [readString, e]
  simp only [Res.ok_bind]
  rw [use_eq (s := { s with inp := inp' }) h.left]
  simp only [Res.ok_bind]
  rw [if_neg (by omega), e'']
  simp only [Res.ok_bind]
  rw [if_neg (by simp), use_eq (L := L) rfl]
  simp only [Res.ok_bind]
  rw [if_neg (by omega)]
  have ht : (↑dst.length + ((t.length : Int) + 1) - 1).toNat = (dst ++ t).length := by simp; omega
  rw [ht, ← List.append_assoc, List.append_assoc (dst ++ t), List.take_left]
  rfl

theorem AtVal.bin {sub : Byte} {t : Bytes} (h : AtVal c C r L Z rest (.bin sub t) s) :
    ∃ s', s.readBinary = .ok (t, s') ∧ Ready c C r L Z rest s' := by
  have hlen : (BScalar.bin sub t).payload.length = 4 + 1 + t.length := by simp [BScalar.payload, le_length]; omega
  have h1 := h.lo
  have h2 := h.hi
  rw [hlen] at h2
  have hi := h.inp
  simp only [BScalar.payload, List.append_assoc] at hi
  obtain ⟨inp', e, hi⟩ := hi.readLE (by omega) (by omega)
  obtain ⟨inp1, e1, hi1⟩ := hi.read
  obtain ⟨inp'', e', hi'⟩ := hi1.read
  refine ⟨_, ?_, h.done hi' (l := (BScalar.bin sub t).payload.length + r - 4 - 1 - t.length) (by rw [hlen]; omega)⟩
  rw [readBinary, e]
  simp only [Res.ok_bind]
  rw [use_eq (s := { s with inp := inp' }) h.left]
  simp only [Res.ok_bind]
  rw [show inp'.read 1 = _ from e1]
  simp only [Res.ok_bind]
  rw [if_neg (by simp), use_eq (L := L) rfl]
  simp only [Res.ok_bind]
  rw [if_neg (by omega), show inp1.read ((t.length : Int)).toNat = _ from e']
  simp only [Res.ok_bind]
  rw [if_neg (by simp), use_eq (L := L) rfl]
  simp only [Res.ok_bind]
  rw [if_neg (by simp)]
  rfl

theorem AtVal.skip' {x : BScalar} (hv : x.valid) (h : AtVal c C r L Z rest x s) :
    ∃ s', s.ignoreDataValue = .ok s' ∧ Ready c C r L Z rest s' := by
  have plain : ∀ n : Int, n = x.payload.length → ∃ s', s.ignoreBytes n = .ok s' ∧ Ready c C r L Z rest s' := by
    intro n hn
    refine ⟨_, ?_, h.done (h.inp.ignore hn) (l := x.payload.length + r - n) (by omega)⟩
    rw [ignoreBytes, use_eq (s := { s with inp := s.inp.ignoreInt n }) h.left]
  have h1 := h.lo
  have h2 := h.hi
  have ht := h.type
  unfold ignoreDataValue
  rw [if_neg (by simp [h.skip])]
  cases x with
  | null =>
    simp only [BScalar.code] at ht
    simp only [ht]
    refine ⟨s, rfl, ?_⟩
    have := h.done (inp := s.inp) (by simpa [BScalar.payload] using h.inp) (l := r) rfl
    have hl := h.left
    simp only [BScalar.payload, List.length_nil, Int.natCast_zero, Int.zero_add] at hl
    rw [← hl] at this
    exact this
  | bool b =>
    simp only [BScalar.code] at ht
    simp only [ht]
    exact plain 1 rfl
  | int32 v =>
    simp only [BScalar.code] at ht
    simp only [ht]
    exact plain 4 (by simp [BScalar.payload, le_length])
  | int64 v =>
    simp only [BScalar.code] at ht
    simp only [ht]
    exact plain 8 (by simp [BScalar.payload, le_length])
  | fixed f p =>
    simp only [BScalar.code] at ht
    have hw : p.length = f.width := hv
    cases f <;> simp only [Fixed.code] at ht <;> simp only [ht] <;>
      exact plain _ (by simp [BScalar.payload, hw, Fixed.width])
  | str t =>
    have hlen : (BScalar.str t).payload.length = 4 + t.length + 1 := by simp [BScalar.payload, le_length]; omega
    rw [hlen] at h2
    simp only [BScalar.code] at ht
    simp only [ht]
    have hi := h.inp
    simp only [BScalar.payload, List.append_assoc] at hi
    obtain ⟨inp', e, hi⟩ := hi.readLE (by omega) (by omega)
    rw [← List.append_assoc] at hi
    refine ⟨_, ?_, h.done (hi.ignore (i := t.length + 1 + 0) (by simp)) (l := (BScalar.str t).payload.length + r - (t.length + 1 + 4 + 0)) (by rw [hlen]; omega)⟩
    show s.ignoreSized 0 = _
    rw [ignoreSized, e]
    simp only [Res.ok_bind]
    rw [if_neg (by omega), use_eq (s := { s with inp := inp'.ignoreInt (↑t.length + 1 + 0) }) h.left]
  | bin sub t =>
    have hlen : (BScalar.bin sub t).payload.length = 4 + 1 + t.length := by simp [BScalar.payload, le_length]; omega
    rw [hlen] at h2
    simp only [BScalar.code] at ht
    simp only [ht]
    have hi := h.inp
    simp only [BScalar.payload, List.append_assoc] at hi
    obtain ⟨inp', e, hi⟩ := hi.readLE (by omega) (by omega)
    rw [← List.append_assoc] at hi
    refine ⟨_, ?_, h.done (hi.ignore (i := t.length + 1) (by simp)) (l := (BScalar.bin sub t).payload.length + r - (t.length + 4 + 1)) (by rw [hlen]; omega)⟩
    show s.ignoreSized 1 = _
    rw [ignoreSized, e]
    simp only [Res.ok_bind]
    rw [if_neg (by omega), use_eq (s := { s with inp := inp'.ignoreInt (↑t.length + 1) }) h.left]

/-- The parser with another function that skips values. -/
def opsI (ig : BsonP → Res BsonP) : POps BsonP := { ops with ignoreData := ig }

/-- A function that skips every valid value, and nothing when there is nothing to skip. -/
structure Skipper (ig : BsonP → Res BsonP) : Prop where
  value : ∀ {c C r L Z rest s} {x : BScalar}, x.valid → AtVal c C r L Z rest x s → ∃ s', ig s = .ok s' ∧ Ready c C r L Z rest s'
  nothing : ∀ {s : BsonP}, s.skip = false → ig s = .ok s

theorem skipper_ignore : Skipper ignoreDataValue :=
  ⟨fun hv h => h.skip' hv, fun h => by rw [ignoreDataValue, if_pos h]⟩

variable {ig : BsonP → Res BsonP} (I : Skipper ig)
include I

theorem AtVal.after {x : BScalar} (hv : x.valid) (h : AtVal c C r L Z rest x s) :
    After (opsI ig) bsem (.scalar x) (Ready c C r L Z rest) s := by
  have ht := h.type
  refine ⟨?_, ?_, ?_, ?_, ?_, ?_, ?_⟩
  · show decide (s.type = 0x0A) = decide (x = BScalar.null)
    rw [ht]
    cases x <;> simp [BScalar.code]
    case fixed f p => cases f <;> simp [Fixed.code]
  · intro k
    show Reads _ (s.getInt k) _
    unfold getInt
    cases x with
    | int32 v =>
      obtain ⟨s', e, hr⟩ := h.int32 hv
      rw [if_pos (by rw [ht]; rfl), e]
      exact ⟨s', rfl, hr⟩
    | int64 v =>
      obtain ⟨s', e, hr⟩ := h.int64 hv
      rw [if_neg (by rw [ht]; simp [BScalar.code]), if_pos (by rw [ht]; rfl), e]
      exact ⟨s', rfl, hr⟩
    | fixed f p => cases f <;> simp [ht, BScalar.code, Fixed.code, bsem, throwStd, Reads]
    | _ => simp [ht, BScalar.code, bsem, throwStd, Reads]
  · show Reads _ s.getBool _
    unfold getBool
    cases x with
    | bool v =>
      obtain ⟨s', e, hr⟩ := h.bool
      rw [if_neg (by rw [ht]; simp [BScalar.code]), e]
      exact ⟨s', rfl, hr⟩
    | fixed f p => cases f <;> simp [ht, BScalar.code, Fixed.code, bsem, throwStd, Reads]
    | _ => simp [ht, BScalar.code, bsem, throwStd, Reads]
  · show Reads _ s.getStr _
    unfold getStr
    cases x with
    | str t =>
      obtain ⟨s', e, hr⟩ := h.str []
      rw [if_neg (by rw [ht]; simp [BScalar.code]), e]
      exact ⟨s', rfl, hr⟩
    | fixed f p => cases f <;> simp [ht, BScalar.code, Fixed.code, bsem, throwStd, Reads]
    | _ => simp [ht, BScalar.code, bsem, throwStd, Reads]
  · intro _
    exact I.value hv h
  · intro b hb
    show Reads _ s.getRaw _
    unfold getRaw
    cases x with
    | int32 v =>
      obtain ⟨s', e, hr⟩ := h.int32 hv
      simp only [bsem, Option.some.injEq] at hb
      subst hb
      rw [if_pos (by rw [ht]; rfl), e]
      exact ⟨s', rfl, hr⟩
    | int64 v =>
      obtain ⟨s', e, hr⟩ := h.int64 hv
      simp only [bsem, Option.some.injEq] at hb
      subst hb
      rw [if_neg (by rw [ht]; simp [BScalar.code]), if_pos (by rw [ht]; rfl), e]
      exact ⟨s', rfl, hr⟩
    | bool v =>
      obtain ⟨s', e, hr⟩ := h.bool
      simp only [bsem, Option.some.injEq] at hb
      subst hb
      rw [if_neg (by rw [ht]; simp [BScalar.code]), if_neg (by rw [ht]; simp [BScalar.code]), if_pos (by rw [ht]; rfl), e]
      exact ⟨s', rfl, hr⟩
    | null =>
      obtain ⟨s', e, hr⟩ := h.skip' hv
      simp only [ignoreDataValue, ht, BScalar.code, h.skip] at e
      simp only [Bool.true_eq_false, if_false] at e
      simp only [bsem, Option.some.injEq] at hb
      subst hb
      simp only [ht, BScalar.code]
      have : s = s' := by simpa using e
      subst this
      exact ⟨s, rfl, hr⟩
    | str t =>
      obtain ⟨s', e, hr⟩ := h.str [0x22]
      simp only [bsem, Option.some.injEq] at hb
      subst hb
      simp only [ht, BScalar.code]
      refine ⟨s', ?_, hr⟩
      simp [e]
    | bin sub t =>
      obtain ⟨s', e, hr⟩ := h.bin
      simp only [bsem, Option.some.injEq] at hb
      subst hb
      simp only [ht, BScalar.code]
      exact ⟨s', e, hr⟩
    | fixed f p =>
      cases f with
      | double =>
        obtain ⟨s', e, hr⟩ := h.double hv
        simp only [bsem, Option.some.injEq] at hb
        subst hb
        simp only [ht, BScalar.code, Fixed.code]
        refine ⟨s', ?_, hr⟩
        simp [e]
      | _ => simp [bsem] at hb
  · intro f
    show Reads _ (s.getFlt f) _
    unfold getFlt
    cases x with
    | int32 v =>
      obtain ⟨s', e, hr⟩ := h.int32 hv
      rw [if_pos (by rw [ht]; rfl), e]
      exact ⟨s', rfl, hr⟩
    | int64 v =>
      obtain ⟨s', e, hr⟩ := h.int64 hv
      rw [if_neg (by rw [ht]; simp [BScalar.code]), if_pos (by rw [ht]; rfl), e]
      exact ⟨s', rfl, hr⟩
    | fixed g p =>
      cases g with
      | double =>
        obtain ⟨s', e, hr⟩ := h.double hv
        rw [if_neg (by rw [ht]; simp [BScalar.code, Fixed.code]), if_neg (by rw [ht]; simp [BScalar.code, Fixed.code]), if_pos (by rw [ht]; rfl), e]
        exact ⟨s', rfl, hr⟩
      | _ => simp [ht, BScalar.code, Fixed.code, bsem, throwStd, Reads]
    | _ => simp [ht, BScalar.code, bsem, throwStd, Reads]

end

/-! ### Containers -/

/-- The containers while an element is read. -/
def pushed (t : BTree) (C : List BCont) : List BCont :=
  match t with
  | .scalar _ => C
  | .arr _ => .Array :: C
  | .obj _ => .Map :: C

theorem scalar_code_ne (x : BScalar) : x.code ≠ 0x03 ∧ x.code ≠ 0x04 := by
  cases x <;> simp [BScalar.code]
  case fixed f p => cases f <;> simp [Fixed.code]

/-- Reading the type and the key of the next element. -/
theorem readKey_elem {c : BCont} {C : List BCont} {r : Int} {L Z : List Int} {rest : Bytes} {s : BsonP} {ty : Byte} {k : Bytes} {l : Int}
    (hk : (0x00 : Byte) ∉ k) (h : BS (c :: C) (l :: L) Z .Key (ty :: k ++ 0x00 :: rest) s) (hl : l = 1 + k.length + 1 + r) :
    ∃ inp', s.readKey = .ok { s with inp := inp', type := ty, key := k, left := r :: L } ∧ BIn rest inp' := by
  obtain ⟨hi, hc, hL, hZ, hn, hs⟩ := h
  obtain ⟨inp1, e1, hi1⟩ := BIn.read (bs := [ty]) (rest := k ++ 0x00 :: rest) (inp := s.inp) (by simpa using hi)
  obtain ⟨inp2, e2, hi2⟩ := hi1.readTo hk
  refine ⟨inp2, ?_, hi2⟩
  have e1' : s.inp.read 1 = .ok ([ty], true, inp1) := e1
  rw [readKey, e1']
  simp only [Res.ok_bind]
  rw [if_neg (by simp), e2]
  simp only [Res.ok_bind]
  rw [if_neg (by simp), use_eq (s := { s with inp := inp2, type := [ty].headD s.type, key := k }) (l := l) (L := L) hL]
  simp only [List.headD_cons]
  congr 3
  omega

/-- The state when the key of an element was read. -/
structure AtElem (c : BCont) (C : List BCont) (r : Int) (L Z : List Int) (rest : Bytes) (t : BTree) (s : BsonP) : Prop where
  bs : BS (pushed t (c :: C)) (((bpayload t).length + r) :: L) Z t.tok (bpayload t ++ rest) s
  type : s.type = btype t
  lo : 1 ≤ r
  hi : (bpayload t).length + r < 2 ^ 31

/-- The next element of a container: either its key is handed out, or its first token at once. -/
theorem ready_next {c : BCont} {C : List BCont} {r : Int} {L Z : List Int} {rest : Bytes} {s : BsonP} {t : BTree} {k : Bytes}
    (hk : (0x00 : Byte) ∉ k) (h1 : 1 ≤ r) (h2 : 1 + k.length + 1 + (bpayload t).length + r < 2 ^ 31)
    (h : Ready c C (1 + k.length + 1 + (bpayload t).length + r) L Z (btype t :: k ++ 0x00 :: (bpayload t ++ rest)) s) :
    ∃ s', AtElem c C r L Z rest t s' ∧ s'.key = k ∧ s.getNextToken = (if c = .Map then .ok (.Key, s') else s'.handOut) := by
  obtain ⟨s0, e0, h0⟩ := h
  rw [if_neg (by omega)] at h0
  obtain ⟨inp', e1, hi⟩ := readKey_elem (r := (bpayload t).length + r) hk h0 (by omega)
  rw [getNextToken, e0]
  simp only [Res.ok_bind]
  rw [if_pos h0.next, e1]
  simp only [Res.ok_bind]
  rw [h0.conts]
  cases t with
  | scalar x =>
    have hx := scalar_code_ne x
    refine ⟨{ s0 with inp := inp', type := x.code, key := k, left := ((bpayload (.scalar x)).length + r) :: L, next := .Value }, ⟨⟨hi, h0.conts, rfl, h0.size, rfl, h0.skip⟩, rfl, h1, by omega⟩, rfl, ?_⟩
    simp only [btype, hx.1, hx.2, if_false, h0.conts]
    rfl
  | arr ts =>
    refine ⟨{ s0 with inp := inp', type := 0x04, key := k, left := ((bpayload (.arr ts)).length + r) :: L, conts := .Array :: c :: C, next := .ArrayStart }, ⟨⟨hi, rfl, rfl, h0.size, rfl, h0.skip⟩, rfl, h1, by omega⟩, rfl, ?_⟩
    rfl
  | obj ms =>
    refine ⟨{ s0 with inp := inp', type := 0x03, key := k, left := ((bpayload (.obj ms)).length + r) :: L, conts := .Map :: c :: C, next := .MapStart }, ⟨⟨hi, rfl, rfl, h0.size, rfl, h0.skip⟩, rfl, h1, by omega⟩, rfl, ?_⟩
    rfl

theorem AtElem.next {c : BCont} {C : List BCont} {r : Int} {L Z : List Int} {rest : Bytes} {t : BTree} {s : BsonP}
    (h : AtElem c C r L Z rest t s) : s.getNextToken = s.handOut := by
  have hn : s.next ≠ .Key := by rw [h.bs.next]; cases t <;> simp [Tr.tok]
  rw [getNextToken, settle, if_neg (by simp [h.bs.skip])]
  simp only [Res.ok_bind]
  rw [if_neg hn]

theorem framed_length (e : Bytes) : (framed e).length = 4 + e.length + 1 := by simp [framed, le_length]; omega

/-- Opening a container. -/
theorem open_container {c : BCont} {C : List BCont} {L Z : List Int} {rest body : Bytes} {s : BsonP} {tok : Tok}
    (hc : c = .Map ∧ tok = .MapStart ∨ c = .Array ∧ tok = .ArrayStart) (h : BS (c :: C) L Z tok (framed body ++ rest) s)
    (hb : (framed body).length < 2 ^ 31) :
    ∃ s1, s.handOut = .ok (tok, s1) ∧ s1.type = s.type ∧
      Ready c C (body.length + 1) L ((framed body).length :: Z) (body ++ 0x00 :: rest) s1 := by
  obtain ⟨hi, hcs, hL, hZ, hn, hs⟩ := h
  rw [framed_length] at hb
  simp only [framed, List.append_assoc] at hi
  obtain ⟨inp', e, hi'⟩ := hi.readLE (by omega) (by omega)
  have hop : s.openLevel = .ok { s with inp := inp', size := ((4 + body.length + 1 : Nat) : Int) :: s.size, left := (((4 + body.length + 1 : Nat) : Int) - 4) :: s.left } := by
    rw [openLevel, e]; rfl
  have hz : (((4 + body.length + 1 : Nat) : Int) - 4) = body.length + 1 := by omega
  rw [hz] at hop
  refine ⟨{ s with inp := inp', size := ((4 + body.length + 1 : Nat) : Int) :: s.size, left := (body.length + 1) :: s.left, next := if (body.length + 1 : Int) = 1 then endTok c else .Key }, ?_, rfl, ?_⟩
  · have hkey : ∀ t, t = .MapStart ∨ t = .ArrayStart → s.next = t → s.handOut = .ok (t, { s with inp := inp', size := ((4 + body.length + 1 : Nat) : Int) :: s.size, left := (body.length + 1) :: s.left, next := if (body.length + 1 : Int) = 1 then endTok c else .Key }) := by
      intro t ht hn
      rw [handOut]
      rcases ht with rfl | rfl <;> rw [hn] <;> simp only [hop, Res.ok_bind, hcs] <;>
        simp only [left_one (l := body.length + 1) (by omega) (by omega)] <;>
        split <;> rcases hc with ⟨rfl, _⟩ | ⟨rfl, _⟩ <;> rfl
    exact hkey tok (by rcases hc with ⟨_, h⟩ | ⟨_, h⟩ <;> simp [h]) hn
  · refine ⟨{ s with inp := inp', size := ((4 + body.length + 1 : Nat) : Int) :: s.size, left := (body.length + 1) :: s.left, next := if (body.length + 1 : Int) = 1 then endTok c else .Key }, ?_, by simpa using hi', hcs, ?_, ?_, rfl, hs⟩
    · rw [settle, if_neg (by simp [hs])]
    · simp [hL]
    · simp [hZ, framed_length]

theorem readEnd_zero {s : BsonP} {rest : Bytes} {l : Int} {L : List Int} (hi : BIn (0x00 :: rest) s.inp) (hl : s.left = l :: L) :
    ∃ inp', s.readEnd = .ok { s with inp := inp', left := (l - 1) :: L } ∧ BIn rest inp' := by
  obtain ⟨inp', e, hi'⟩ := BIn.read (bs := [0x00]) (rest := rest) (inp := s.inp) hi
  refine ⟨inp', ?_, hi'⟩
  have e' : s.inp.read 1 = .ok ([0x00], true, inp') := e
  rw [readEnd, e']
  simp only [Res.ok_bind]
  rw [if_neg (by simp), use_eq (s := { s with inp := inp' }) hl]
  simp only [Res.ok_bind]
  rfl

/-- Closing an inner container. -/
theorem close_inner {k c : BCont} {C : List BCont} {n r : Int} {L Z : List Int} {rest : Bytes} {s : BsonP} (hk : k ≠ .Value)
    (h : BS (k :: c :: C) (1 :: (n + r) :: L) (n :: Z) (endTok k) (0x00 :: rest) s) (h1 : 1 ≤ r) (h2 : r < 2 ^ 31) :
    ∃ s1, s.handOut = .ok (endTok k, s1) ∧ Ready c C r L Z rest s1 := by
  obtain ⟨hi, hcs, hL, hZ, hn, hs⟩ := h
  obtain ⟨inp', e, hi'⟩ := readEnd_zero hi hL
  have hh : s.handOut = .ok (endTok k, { s with inp := inp', conts := c :: C, left := r :: L, size := Z, next := if r = 1 then endTok c else .Key }) := by
    have : ∀ t, t = .MapEnd ∨ t = .ArrayEnd → s.next = t → s.handOut = .ok (t, { s with inp := inp', conts := c :: C, left := r :: L, size := Z, next := if r = 1 then endTok c else .Key }) := by
      intro t ht hn
      rw [handOut]
      have hr : n + r - n = r := by omega
      rcases ht with rfl | rfl <;> rw [hn] <;> simp only [e, Res.ok_bind, hcs, hZ, hr] <;>
        rw [endToken_eq (l := r) (L := L) rfl rfl h1 h2] <;> simp only [Res.ok_bind] <;> split <;> simp_all
    exact this _ (by cases k <;> simp_all [endTok]) hn
  exact ⟨_, hh, { s with inp := inp', conts := c :: C, left := r :: L, size := Z, next := if r = 1 then endTok c else .Key },
    by rw [settle, if_neg (by simp [hs])], hi', rfl, rfl, rfl, rfl, hs⟩

/-- No decimal number contains a NUL. -/
theorem decimal_no_nul (n : Nat) : (0x00 : Byte) ∉ decimal n := by
  rw [← natText_decimal]
  intro h
  have := (dec_iff.1 (natText_dec n)).2.1 _ h
  revert this
  decide

section
variable (ig : BsonP → Res BsonP)

/-- What is shown of every element. -/
def Good (t : BTree) : Prop := ∀ (c : BCont) (C : List BCont) (r : Int) (L Z : List Int) (rest : Bytes) (s : BsonP),
  AtElem c C r L Z rest t s → ∃ s1, s.handOut = .ok (t.tok, s1) ∧ After (opsI ig) bsem t (Ready c C r L Z rest) s1

/-- The body of an array. -/
theorem array_body {ig : BsonP → Res BsonP} (ts : List BTree) (hg : ∀ t ∈ ts, Good ig t) : ∀ (i : Nat) (C : List BCont) (L Z : List Int) (rest : Bytes) (Q : BsonP → Prop) (s : BsonP),
    ((bpayload.elems i ts).length : Int) + 1 < 2 ^ 31 →
    Ready .Array C ((bpayload.elems i ts).length + 1) L Z (bpayload.elems i ts ++ 0x00 :: rest) s →
    (∀ s', BS (.Array :: C) (1 :: L) Z .ArrayEnd (0x00 :: rest) s' → ∃ s1, s'.handOut = .ok (.ArrayEnd, s1) ∧ Q s1) →
    After.elems (opsI ig) bsem ts Q s := by
  induction ts with
  | nil =>
    intro i C L Z rest Q s hb h hQ
    obtain ⟨s0, e0, h0⟩ := h
    rw [if_pos (by simp [bpayload.elems])] at h0
    obtain ⟨s1, e1, hq⟩ := hQ s0 (by simpa [bpayload.elems, endTok] using h0)
    refine ⟨s1, ?_, hq⟩
    show s.getNextToken = _
    rw [getNextToken, e0]
    simp only [Res.ok_bind]
    rw [if_neg (by rw [h0.next]; simp [endTok]), e1]
  | cons t ts ih =>
    intro i C L Z rest Q s hb h hQ
    have hlen : (bpayload.elems i (t :: ts)).length = 1 + (decimal i).length + 1 + (bpayload t).length + (bpayload.elems (i + 1) ts).length := by
      simp [bpayload.elems]; omega
    have hl : ((bpayload.elems i (t :: ts)).length : Int) + 1 = 1 + (decimal i).length + 1 + (bpayload t).length + ((bpayload.elems (i + 1) ts).length + 1 : Int) := by
      rw [hlen]; omega
    rw [hl] at h hb
    have hrest : bpayload.elems i (t :: ts) ++ 0x00 :: rest = btype t :: decimal i ++ 0x00 :: (bpayload t ++ (bpayload.elems (i + 1) ts ++ 0x00 :: rest)) := by
      simp [bpayload.elems]
    rw [hrest] at h
    obtain ⟨s', ha, _, e⟩ := ready_next (decimal_no_nul i) (by omega) hb h
    rw [if_neg (by simp)] at e
    obtain ⟨s1, e1, h1⟩ := hg t (by simp) _ _ _ _ _ _ _ ha
    refine ⟨s1, e.trans e1, after_mono (opsI ig) bsem t ?_ h1⟩
    intro s2 h2
    exact ih (fun t ht => hg t (by simp [ht])) (i + 1) C L Z rest Q s2 (by omega) h2 hQ

/-- The body of a document. -/
theorem map_body {ig : BsonP → Res BsonP} (I : Skipper ig) (ms : List (Bytes × BTree)) (hg : ∀ m ∈ ms, Good ig m.2) (hk : ∀ m ∈ ms, (0x00 : Byte) ∉ m.1) : ∀ (C : List BCont) (L Z : List Int) (rest : Bytes) (Q : BsonP → Prop) (s : BsonP),
    ((bpayload.members ms).length : Int) + 1 < 2 ^ 31 →
    Ready .Map C ((bpayload.members ms).length + 1) L Z (bpayload.members ms ++ 0x00 :: rest) s →
    (∀ s', BS (.Map :: C) (1 :: L) Z .MapEnd (0x00 :: rest) s' → ∃ s1, s'.handOut = .ok (.MapEnd, s1) ∧ Q s1) →
    After.members (opsI ig) bsem ms Q s := by
  induction ms with
  | nil =>
    intro C L Z rest Q s hb h hQ
    obtain ⟨s0, e0, h0⟩ := h
    rw [if_pos (by simp [bpayload.members])] at h0
    obtain ⟨s1, e1, hq⟩ := hQ s0 (by simpa [bpayload.members, endTok] using h0)
    refine ⟨s1, ?_, hq⟩
    show s.getNextToken = _
    rw [getNextToken, e0]
    simp only [Res.ok_bind]
    rw [if_neg (by rw [h0.next]; simp [endTok]), e1]
  | cons m ms ih =>
    obtain ⟨k, t⟩ := m
    intro C L Z rest Q s hb h hQ
    have hlen : (bpayload.members ((k, t) :: ms)).length = 1 + k.length + 1 + (bpayload t).length + (bpayload.members ms).length := by
      simp [bpayload.members]; omega
    have hl : ((bpayload.members ((k, t) :: ms)).length : Int) + 1 = 1 + k.length + 1 + (bpayload t).length + ((bpayload.members ms).length + 1 : Int) := by
      rw [hlen]; omega
    rw [hl] at h hb
    have hrest : bpayload.members ((k, t) :: ms) ++ 0x00 :: rest = btype t :: k ++ 0x00 :: (bpayload t ++ (bpayload.members ms ++ 0x00 :: rest)) := by
      simp [bpayload.members]
    rw [hrest] at h
    obtain ⟨s', ha, hkey, e⟩ := ready_next (hk (k, t) (by simp)) (by omega) hb h
    rw [if_pos rfl] at e
    obtain ⟨s1, e1, h1⟩ := hg (k, t) (by simp) _ _ _ _ _ _ _ ha
    have hafter : After (opsI ig) bsem t (After.members (opsI ig) bsem ms Q) s1 := after_mono (opsI ig) bsem t (fun s2 h2 =>
      ih (fun m hm => hg m (by simp [hm])) (fun m hm => hk m (by simp [hm])) C L Z rest Q s2 (by omega) h2 hQ) h1
    have hn : (opsI ig).next s' = .ok (t.tok, s1) := (ha.next).trans e1
    refine ⟨s', e, ⟨s', ?_, s1, hn, hafter⟩, fun _ => ⟨s', ?_, s1, hn, hafter⟩⟩
    · show s'.getKey = _
      rw [getKey, hkey]; rfl
    · exact I.nothing ha.bs.skip
end

theorem allKeys_elems {K X : Type} {P : K → Prop} : ∀ {ts : List (Tr K X)}, AllKeys.elems P ts → ∀ t ∈ ts, AllKeys P t
  | [], _, _, h => absurd h List.not_mem_nil
  | t :: ts, ⟨h1, h2⟩, u, h => by
    rcases List.mem_cons.1 h with rfl | h
    · exact h1
    · exact allKeys_elems h2 u h

theorem allKeys_members {K X : Type} {P : K → Prop} : ∀ {ms : List (K × Tr K X)}, AllKeys.members P ms → ∀ m ∈ ms, P m.1 ∧ AllKeys P m.2
  | [], _, _, h => absurd h List.not_mem_nil
  | (k, t) :: ts, ⟨h0, h1, h2⟩, u, h => by
    rcases List.mem_cons.1 h with rfl | h
    · exact ⟨h0, h1⟩
    · exact allKeys_members h2 u h

theorem allScalars_elems {K X : Type} {P : X → Prop} : ∀ {ts : List (Tr K X)}, AllScalars.elems P ts → ∀ t ∈ ts, AllScalars P t
  | [], _, _, h => absurd h List.not_mem_nil
  | t :: ts, ⟨h1, h2⟩, u, h => by
    rcases List.mem_cons.1 h with rfl | h
    · exact h1
    · exact allScalars_elems h2 u h

theorem allScalars_members {K X : Type} {P : X → Prop} : ∀ {ms : List (K × Tr K X)}, AllScalars.members P ms → ∀ m ∈ ms, AllScalars P m.2
  | [], _, _, h => absurd h List.not_mem_nil
  | (k, t) :: ts, ⟨h1, h2⟩, u, h => by
    rcases List.mem_cons.1 h with rfl | h
    · exact h1
    · exact allScalars_members h2 u h

/-- Every element with valid keys and scalars is presented. -/
theorem all_good {ig : BsonP → Res BsonP} (I : Skipper ig) (t : BTree) : AllKeys (fun k => (0x00 : Byte) ∉ k) t → AllScalars BScalar.valid t → Good ig t := by
  induction t using Spec.Tr.induct with
  | hs x =>
    intro _ hs c C r L Z rest s h
    obtain ⟨⟨hi, hc, hL, hZ, hn, hsk⟩, ht, h1, h2⟩ := h
    refine ⟨{ s with skip := true }, ?_, ?_⟩
    · have hn' : s.next = .Value := hn
      rw [handOut, hn']
      rfl
    · exact AtVal.after I hs ⟨hi, hc, hL, hZ, rfl, ht, h1, h2⟩
  | ha ts ih =>
    intro hk hs c C r L Z rest s h
    obtain ⟨hb, ht, h1, h2⟩ := h
    obtain ⟨s1, e1, ht1, h3⟩ := open_container (c := .Array) (body := bpayload.elems 0 ts) (.inr ⟨rfl, rfl⟩) hb (by simp only [bpayload] at h2; omega)
    have hfl := framed_length (bpayload.elems 0 ts)
    simp only [bpayload] at h2
    refine ⟨s1, e1, ?_, ?_⟩
    · show decide (s1.type = 0x0A) = false
      rw [ht1, ht]; rfl
    · refine array_body ts (fun t ht => ih t ht ?_ ?_) 0 _ _ _ rest _ s1 (by omega) h3 ?_
      · exact allKeys_elems hk t ht
      · exact allScalars_elems hs t ht
      · intro s' hs'
        exact close_inner (k := .Array) (by simp) hs' h1 (by omega)
  | ho ms ih =>
    intro hk hs c C r L Z rest s h
    obtain ⟨hb, ht, h1, h2⟩ := h
    obtain ⟨s1, e1, ht1, h3⟩ := open_container (c := .Map) (body := bpayload.members ms) (.inl ⟨rfl, rfl⟩) hb (by simp only [bpayload] at h2; omega)
    have hfl := framed_length (bpayload.members ms)
    simp only [bpayload] at h2
    refine ⟨s1, e1, ?_, ?_⟩
    · show decide (s1.type = 0x0A) = false
      rw [ht1, ht]; rfl
    · refine map_body I ms (fun m hm => ih m hm ?_ ?_) ?_ _ _ _ rest _ s1 (by omega) h3 ?_
      · exact (allKeys_members hk m hm).2
      · exact allScalars_members hs m hm
      · intro m hm; exact (allKeys_members hk m hm).1
      · intro s' hs'
        exact close_inner (k := .Map) (by simp) hs' h1 (by omega)

/-! ### Whole documents -/

/-- Closing the outermost container. -/
theorem close_root {k : BCont} {n : Int} {rest : Bytes} {s : BsonP} (hk : k ≠ .Value)
    (h : BS [k] [1] [n] (endTok k) (0x00 :: rest) s) :
    ∃ s1, s.handOut = .ok (endTok k, s1) ∧ BS [] [] [] .DocEnd rest s1 := by
  obtain ⟨hi, hcs, hL, hZ, hn, hs⟩ := h
  obtain ⟨inp', e, hi'⟩ := readEnd_zero hi hL
  refine ⟨{ s with inp := inp', conts := [], left := [], size := [], next := .DocEnd }, ?_, hi', rfl, rfl, rfl, rfl, hs⟩
  · have : ∀ t, t = .MapEnd ∨ t = .ArrayEnd → s.next = t → s.handOut = .ok (t, { s with inp := inp', conts := [], left := [], size := [], next := .DocEnd }) := by
      intro t ht hn
      rw [handOut]
      rcases ht with rfl | rfl <;> rw [hn] <;> simp only [e, Res.ok_bind, hcs, hZ] <;> rfl
    exact this _ (by cases k <;> simp_all [endTok]) hn

/-- The container a tree needs at the top. -/
def rootKind : BTree → BCont
  | .scalar _ => .Value
  | .arr _ => .Array
  | .obj _ => .Map

theorem next_handOut {s : BsonP} (hs : s.skip = false) (hn : s.next ≠ .Key) : s.getNextToken = s.handOut := by
  rw [getNextToken, settle, if_neg (by simp [hs])]
  simp only [Res.ok_bind]
  rw [if_neg hn]

/-- The parser behind the value of a document. After an array or an object it is behind the document; after a scalar it is in front of the terminator. -/
def DocEnds : BTree → Bytes → BsonP → Prop
  | .scalar _, rest, s => ∃ s3, s.settle = .ok s3 ∧ BS [.Value, .Value] [1] s3.size .DocEnd (0x00 :: rest) s3
  | _, rest, s => BS [] [] [] .DocEnd rest s

theorem DocEnds.next {t : BTree} {rest : Bytes} {s : BsonP} (h : DocEnds t rest s) : ∃ s', s.getNextToken = .ok (.DocEnd, s') ∧ BIn rest s'.inp := by
  have cont : BS [] [] [] .DocEnd rest s → ∃ s', s.getNextToken = .ok (.DocEnd, s') ∧ BIn rest s'.inp := by
    rintro ⟨hi, hcs, hL, hZ, hn, hs⟩
    refine ⟨{ s with next := .Error }, ?_, hi⟩
    rw [next_handOut hs (by rw [hn]; simp), handOut, hn]
    simp [hcs]
  cases t with
  | arr ts => exact cont h
  | obj ms => exact cont h
  | scalar x =>
    obtain ⟨s3, e3, h3⟩ := h
    obtain ⟨inp4, e4, hi4⟩ := readEnd_zero h3.inp h3.left
    have hn3 : s3.next = .DocEnd := h3.next
    refine ⟨{ s3 with inp := inp4, left := [(1 : Int) - 1], next := .Error }, ?_, hi4⟩
    rw [getNextToken, e3]
    simp only [Res.ok_bind]
    rw [if_neg (by rw [hn3]; simp), handOut, hn3]
    simp only [h3.conts, List.head?_cons, if_true, e4, Res.ok_bind]
    rfl

/-- What a parser in front of a document does, and where it ends: in front of the end of the document. -/
def DocPresentsTo (ig : BsonP → Res BsonP) (t : BTree) (rest : Bytes) (s : BsonP) : Prop :=
  ∃ s1, (opsI ig).next s = .ok (.DocStart, s1) ∧ Presents (opsI ig) bsem t (DocEnds t rest) s1

/-- What a parser in front of a document does, and where it ends. -/
def DocPresents (ig : BsonP → Res BsonP) (t : BTree) (rest : Bytes) (s : BsonP) : Prop :=
  ∃ s1, (opsI ig).next s = .ok (.DocStart, s1) ∧
    Presents (opsI ig) bsem t (fun s => ∃ s', (opsI ig).next s = .ok (.DocEnd, s') ∧ BIn rest s'.inp) s1

theorem arr_presents {ig : BsonP → Res BsonP} (I : Skipper ig) {ts : List BTree} (hk : AllKeys (fun k => (0x00 : Byte) ∉ k) (.arr ts)) (hs : AllScalars BScalar.valid (.arr ts))
    (hlen : (framed (bpayload.elems 0 ts)).length < 2 ^ 31) {rest d : Bytes} (hin : BIn (framed (bpayload.elems 0 ts) ++ rest) (StrIn.ofBytes d)) :
    DocPresentsTo ig (.arr ts) rest (ofBytes .Array d) := by
  have hfl := framed_length (bpayload.elems 0 ts)
  generalize hs0 : ({ ofBytes .Array d with next := .ArrayStart } : BsonP) = s0
  have hb : BS [.Array] [] [] .ArrayStart (framed (bpayload.elems 0 ts) ++ rest) s0 := by
    subst hs0; exact ⟨hin, rfl, rfl, rfl, rfl, rfl⟩
  have ht0 : s0.type = 0x00 := by subst hs0; rfl
  obtain ⟨s1, e1, ht1, h3⟩ := open_container (.inr ⟨rfl, rfl⟩) hb (by omega)
  refine ⟨s0, by subst hs0; rfl, s1, (next_handOut hb.skip (by rw [hb.next]; simp)).trans e1, ?_, ?_⟩
  · show decide (s1.type = 0x0A) = false
    rw [ht1, ht0]; rfl
  · refine array_body ts (fun t ht => all_good I t (allKeys_elems hk t ht) (allScalars_elems hs t ht)) 0 _ _ _ rest _ s1 (by omega) h3 ?_
    intro s' hs'
    exact close_root (k := .Array) (by simp) hs'

theorem obj_presents {ig : BsonP → Res BsonP} (I : Skipper ig) {ms : List (Bytes × BTree)} (hk : AllKeys (fun k => (0x00 : Byte) ∉ k) (.obj ms)) (hs : AllScalars BScalar.valid (.obj ms))
    (hlen : (framed (bpayload.members ms)).length < 2 ^ 31) {rest d : Bytes} (hin : BIn (framed (bpayload.members ms) ++ rest) (StrIn.ofBytes d)) :
    DocPresentsTo ig (.obj ms) rest (ofBytes .Map d) := by
  have hfl := framed_length (bpayload.members ms)
  generalize hs0 : ({ ofBytes .Map d with next := .MapStart } : BsonP) = s0
  have hb : BS [.Map] [] [] .MapStart (framed (bpayload.members ms) ++ rest) s0 := by
    subst hs0; exact ⟨hin, rfl, rfl, rfl, rfl, rfl⟩
  have ht0 : s0.type = 0x00 := by subst hs0; rfl
  obtain ⟨s1, e1, ht1, h3⟩ := open_container (.inl ⟨rfl, rfl⟩) hb (by omega)
  refine ⟨s0, by subst hs0; rfl, s1, (next_handOut hb.skip (by rw [hb.next]; simp)).trans e1, ?_, ?_⟩
  · show decide (s1.type = 0x0A) = false
    rw [ht1, ht0]; rfl
  · refine map_body I ms (fun m hm => all_good I m.2 (allKeys_members hk m hm).2 (allScalars_members hs m hm)) (fun m hm => (allKeys_members hk m hm).1) _ _ _ rest _ s1 (by omega) h3 ?_
    intro s' hs'
    exact close_root (k := .Map) (by simp) hs'

theorem scalar_presents {ig : BsonP → Res BsonP} (I : Skipper ig) {x : BScalar} (hs : x.valid)
    (hlen : (framed (x.code :: [0x30, 0x00] ++ x.payload)).length < 2 ^ 31) {rest d : Bytes}
    (hin : BIn (framed (x.code :: [0x30, 0x00] ++ x.payload) ++ rest) (StrIn.ofBytes d)) :
    DocPresentsTo ig (.scalar x) rest (ofBytes .Value d) := by
  have hfl := framed_length (x.code :: [0x30, 0x00] ++ x.payload)
  rw [hfl] at hlen
  simp only [framed, List.append_assoc] at hin
  obtain ⟨inp', e, hi'⟩ := hin.readLE (by omega) (by omega)
  have hlp : ((4 + (x.code :: ([0x30, 0x00] ++ x.payload)).length + 1 : Nat) : Int) = 4 + (3 + x.payload.length) + 1 := by simp; omega
  rw [List.cons_append] at e hlen
  rw [hlp] at e
  generalize hs0 : ({ ofBytes .Value d with next := .Key, conts := [.Value, .Value], inp := inp', size := [(4 + (3 + x.payload.length) + 1 : Int)], left := [(4 + (3 + x.payload.length) + 1 : Int) - 4] } : BsonP) = s0
  have h0 : (opsI ig).next (ofBytes .Value d) = .ok (.DocStart, s0) := by
    show getNextToken _ = _
    rw [next_handOut rfl (by simp [ofBytes]), handOut]
    simp only [ofBytes, openLevel, e, Res.ok_bind]
    subst hs0
    rfl
  refine ⟨s0, h0, ?_⟩
  have hr : Ready .Value [.Value] (1 + ([0x30] : Bytes).length + 1 + (bpayload (.scalar x)).length + 1) [] [(4 + (3 + x.payload.length) + 1 : Int)] (btype (.scalar x) :: [0x30] ++ 0x00 :: (bpayload (.scalar x) ++ 0x00 :: rest)) s0 := by
    refine ⟨s0, ?_, ?_, ?_, ?_, ?_, ?_, ?_⟩
    · subst hs0; rfl
    · subst hs0; simpa [btype, bpayload] using hi'
    · subst hs0; rfl
    · subst hs0; simp only [bpayload, List.length_cons, List.length_nil]
      congr 1
      omega
    · subst hs0; rfl
    · rw [if_neg (by simp only [List.length_cons, List.length_nil]; omega)]
      subst hs0; rfl
    · subst hs0; rfl
  have hpl : (bpayload (.scalar x)).length = x.payload.length := rfl
  obtain ⟨s', ha, _, e'⟩ := ready_next (k := [0x30]) (by decide) (by omega) (by simp only [List.length_cons, List.length_nil]; simp at hlen; omega) hr
  rw [if_neg (by simp)] at e'
  obtain ⟨s1, e1, h1⟩ := all_good I (.scalar x) trivial hs _ _ _ _ _ _ _ ha
  refine ⟨s1, e'.trans e1, after_mono (opsI ig) bsem _ ?_ h1⟩
  intro s2 ⟨s3, e3, h3⟩
  rw [if_pos rfl] at h3
  exact ⟨s3, e3, by rw [h3.size]; exact h3⟩

/-- A parser constructed for the right kind of document presents it. -/
theorem bdoc_presents_to {ig : BsonP → Res BsonP} (I : Skipper ig) (t : BTree) (h : Storable32 t) (rest : Bytes) : DocPresentsTo ig t rest (ofBytes (rootKind t) (bdoc t ++ rest)) := by
  obtain ⟨hk, hs, hlen⟩ := h
  have hin : BIn (bdoc t ++ rest) (StrIn.ofBytes (bdoc t ++ rest)) := ⟨rfl, Nat.zero_le _, rfl⟩
  cases t with
  | arr ts =>
    have hd : bdoc (.arr ts) = framed (bpayload.elems 0 ts) := by simp only [bdoc, bpayload]
    rw [hd] at hin hlen ⊢
    exact arr_presents I hk hs hlen hin
  | obj ms =>
    have hd : bdoc (.obj ms) = framed (bpayload.members ms) := by simp only [bdoc, bpayload]
    rw [hd] at hin hlen ⊢
    exact obj_presents I hk hs hlen hin
  | scalar x => exact scalar_presents I hs hlen hin

theorem bdoc_presents {ig : BsonP → Res BsonP} (I : Skipper ig) (t : BTree) (h : Storable32 t) (rest : Bytes) : DocPresents ig t rest (ofBytes (rootKind t) (bdoc t ++ rest)) := by
  obtain ⟨s1, e1, s2, e2, h2⟩ := bdoc_presents_to I t h rest
  exact ⟨s1, e1, s2, e2, after_mono (opsI ig) bsem t (fun _ => DocEnds.next) h2⟩

end BsonP
end Thors
