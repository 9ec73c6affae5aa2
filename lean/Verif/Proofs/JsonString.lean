import Verif.Proofs.Unicode
import Verif.Model.Escape
import Verif.Model.JsonLexer
import Verif.Spec.JsonString
/-
Lemmas: decoding against the string specification, escaping, and the scan for the closing quote.
-/
namespace Thors
open Spec

/-! ### hex digits -/

theorem hex_convert {c : Byte} {v : Nat} : Hex c v ↔ convertHexToDec c = .ok v := by
  constructor
  · intro h
    cases h with
    | dec _ h =>
      have : ∀ d : Fin 10, convertHexToDec (UInt8.ofNat (0x30 + d.val)) = .ok d.val := by decide
      exact this ⟨v, h⟩
    | upper d h =>
      have : ∀ d : Fin 6, convertHexToDec (UInt8.ofNat (0x41 + d.val)) = .ok (10 + d.val) := by decide
      exact this ⟨d, h⟩
    | lower d h =>
      have : ∀ d : Fin 6, convertHexToDec (UInt8.ofNat (0x61 + d.val)) = .ok (10 + d.val) := by decide
      exact this ⟨d, h⟩
  · intro h
    unfold convertHexToDec at h
    split at h
    · rename_i hc
      simp only [Res.ok.injEq] at h
      rw [UInt8.le_iff_toNat_le, UInt8.le_iff_toNat_le] at hc
      simp at hc
      have := Hex.dec v (by omega)
      have e : UInt8.ofNat (0x30 + v) = c := by
        apply UInt8.toNat_inj.mp; simp; omega
      rwa [e] at this
    split at h
    · rename_i hc
      simp only [Res.ok.injEq] at h
      rw [UInt8.le_iff_toNat_le, UInt8.le_iff_toNat_le] at hc
      simp at hc
      have := Hex.upper (v - 10) (by omega)
      have e : UInt8.ofNat (0x41 + (v - 10)) = c := by
        apply UInt8.toNat_inj.mp; simp; omega
      rw [e, show 10 + (v - 10) = v by omega] at this
      exact this
    split at h
    · rename_i hc
      simp only [Res.ok.injEq] at h
      rw [UInt8.le_iff_toNat_le, UInt8.le_iff_toNat_le] at hc
      simp at hc
      have := Hex.lower (v - 10) (by omega)
      have e : UInt8.ofNat (0x61 + (v - 10)) = c := by
        apply UInt8.toNat_inj.mp; simp; omega
      rw [e, show 10 + (v - 10) = v by omega] at this
      exact this
    · simp at h

theorem hex_lt {c v} (h : Hex c v) : v < 16 := convertHexToDec_lt (hex_convert.mp h)

theorem hex4_hexL {h : Bytes} {v : Nat} (hv : Hex4 h v) (t : Bytes) : hexL 4 0 (h ++ t) = .ok v := by
  cases hv with
  | mk ha hb hc hd =>
    simp only [hexL, List.cons_append, hex_convert.mp ha, hex_convert.mp hb, hex_convert.mp hc,
      hex_convert.mp hd, Res.ok_bind, Nat.shiftLeft_eq]
    congr 1; omega

theorem hexL_hex4 {t : Bytes} {v : Nat} (h : hexL 4 0 t = .ok v) :
    ∃ a t', t = a ++ t' ∧ a.length = 4 ∧ Hex4 a v := by
  have hl := hexL_len h
  match t, hl with
  | a :: b :: c :: d :: t', _ =>
    simp only [hexL, Res.bind_eq_ok, Nat.shiftLeft_eq] at h
    obtain ⟨w, hw, x, hx, y, hy, z, hz, h⟩ := h
    simp at h
    refine ⟨[a, b, c, d], t', rfl, rfl, ?_⟩
    have := Hex4.mk (hex_convert.mpr hw) (hex_convert.mpr hx) (hex_convert.mpr hy) (hex_convert.mpr hz)
    rw [← h, show (((w * 16 + x) * 16 + y) * 16 + z) = w * 4096 + x * 256 + y * 16 + z by omega]
    exact this

theorem hex4_lt {h v} (hv : Hex4 h v) : v < 0x10000 := by
  cases hv with
  | mk ha hb hc hd =>
    have := hex_lt ha; have := hex_lt hb; have := hex_lt hc; have := hex_lt hd
    omega

theorem hex4_length {h v} (hv : Hex4 h v) : h.length = 4 := by cases hv; rfl

/-! ### bit arithmetic -/

theorem or_add {a b : Nat} (n : Nat) (h : b < 2 ^ n) : (2 ^ n * a) ||| b = 2 ^ n * a + b := by
  rw [Nat.two_pow_add_eq_or_of_lt h]

theorem and_mask (x n : Nat) : x &&& (2 ^ n - 1) = x % 2 ^ n := Nat.and_two_pow_sub_one_eq_mod x n

theorem or80 (x : Nat) : 0x80 ||| (x &&& 0x3F) = 0x80 + x % 64 := by
  have h1 : x &&& 0x3F = x % 64 := and_mask x 6
  rw [h1]
  have h2 : (0x80 : Nat) ||| (x % 64) = 0x80 + x % 64 := or_add (a := 2) 6 (Nat.mod_lt _ (by decide))
  exact h2

theorem orC0 {x : Nat} (h : x < 0x800) : 0xC0 ||| ((x >>> 6) &&& 0x1F) = 0xC0 + x / 64 := by
  have h1 : (x >>> 6) &&& 0x1F = (x >>> 6) % 32 := and_mask _ 5
  rw [h1, Nat.shiftRight_eq_div_pow]
  have : x / 2 ^ 6 % 32 = x / 64 := by omega
  rw [this]
  exact or_add (a := 6) 5 (by omega)

theorem orE0 {x : Nat} (h : x < 0x10000) : 0xE0 ||| ((x >>> 12) &&& 0x0F) = 0xE0 + x / 4096 := by
  have h1 : (x >>> 12) &&& 0x0F = (x >>> 12) % 16 := and_mask _ 4
  rw [h1, Nat.shiftRight_eq_div_pow]
  have : x / 2 ^ 12 % 16 = x / 4096 := by omega
  rw [this]
  exact or_add (a := 14) 4 (by omega)

theorem orF0 {x : Nat} (h : x < 0x200000) : 0xF0 ||| ((x >>> 18) &&& 0x0F) = 0xF0 + x / 262144 := by
  have h1 : (x >>> 18) &&& 0x0F = (x >>> 18) % 16 := and_mask _ 4
  rw [h1, Nat.shiftRight_eq_div_pow]
  have : x / 2 ^ 18 % 16 = x / 262144 := by omega
  rw [this]
  exact or_add (a := 15) 4 (by omega)

theorem and_FC00 {u : Nat} (h : u < 0x10000) : u &&& 0xFC00 = u / 1024 * 1024 := by
  have h2 : u &&& 0xFC00 = ((u / 1024) &&& 0x3F) <<< 10 ||| ((u % 1024) &&& 0) := by
    apply Nat.eq_of_testBit_eq
    intro i
    simp only [Nat.testBit_and, Nat.testBit_or, Nat.testBit_shiftLeft, Nat.and_zero, Nat.zero_testBit, Bool.or_false]
    rw [show u / 1024 = u >>> 10 by rw [Nat.shiftRight_eq_div_pow]]
    simp only [Nat.testBit_shiftRight]
    by_cases hi : 10 ≤ i
    · simp only [hi, decide_true, Bool.true_and]
      rw [show 10 + (i - 10) = i by omega]
      congr 1
      rw [show (0xFC00 : Nat) = 0x3F <<< 10 by decide, Nat.testBit_shiftLeft]
      simp [hi]
    · simp only [hi, decide_false, Bool.false_and]
      rw [show (0xFC00 : Nat) = 0x3F <<< 10 by decide, Nat.testBit_shiftLeft]
      simp [hi]
  rw [h2]
  have h1 : (u / 1024) &&& 0x3F = (u / 1024) % 64 := and_mask _ 6
  rw [h1]
  simp [Nat.shiftLeft_eq]
  omega

theorem and_FC00_iff {u : Nat} (h : u < 0x10000) : u &&& 0xFC00 = 0xD800 ↔ highSurrogate u := by
  rw [and_FC00 h]; unfold highSurrogate; omega

/-- `a * 2^16 + b` masked with `p * 2^16 + q`. -/
theorem and_split (a b p q : Nat) (hb : b < 2 ^ 16) (hq : q < 2 ^ 16) :
    (a * 2 ^ 16 + b) &&& (p * 2 ^ 16 + q) = (a &&& p) * 2 ^ 16 + (b &&& q) := by
  have e1 : a * 2 ^ 16 + b = a <<< 16 ||| b := by
    rw [Nat.shiftLeft_eq, Nat.mul_comm, Nat.two_pow_add_eq_or_of_lt hb]
  have e2 : p * 2 ^ 16 + q = p <<< 16 ||| q := by
    rw [Nat.shiftLeft_eq, Nat.mul_comm, Nat.two_pow_add_eq_or_of_lt hq]
  have hbq : b &&& q < 2 ^ 16 := Nat.and_lt_two_pow _ hq
  have e3 : (a &&& p) * 2 ^ 16 + (b &&& q) = (a &&& p) <<< 16 ||| (b &&& q) := by
    rw [Nat.shiftLeft_eq, Nat.mul_comm, Nat.two_pow_add_eq_or_of_lt hbq]
  rw [e1, e2, e3]
  apply Nat.eq_of_testBit_eq
  intro i
  simp only [Nat.testBit_and, Nat.testBit_or, Nat.testBit_shiftLeft]
  by_cases hi : 16 ≤ i
  · have h1 : b.testBit i = false := Nat.testBit_lt_two_pow (Nat.lt_of_lt_of_le hb (Nat.pow_le_pow_right (by decide) hi))
    have h2 : q.testBit i = false := Nat.testBit_lt_two_pow (Nat.lt_of_lt_of_le hq (Nat.pow_le_pow_right (by decide) hi))
    simp [hi, h1, h2]
  · simp [hi]

theorem low_iff {u : Nat} (h : u < 0x10000) : u &&& 0xFC00 = 0xDC00 ↔ lowSurrogate u := by
  rw [and_FC00 h]; unfold lowSurrogate; omega

theorem pair_mask {hi lo : Nat} (h1 : hi < 0x10000) (h2 : lo < 0x10000) :
    ((hi <<< 16) + lo) &&& 0xFC00FC00 = 0xD800DC00 ↔ (highSurrogate hi ∧ lowSurrogate lo) := by
  rw [Nat.shiftLeft_eq, show (0xFC00FC00 : Nat) = 0xFC00 * 2 ^ 16 + 0xFC00 by decide,
    and_split _ _ _ _ (by simpa using h2) (by decide), show (0xD800DC00 : Nat) = 0xD800 * 2 ^ 16 + 0xDC00 by decide,
    ← and_FC00_iff h1, ← low_iff h2]
  have a1 : hi &&& 0xFC00 < 2 ^ 16 := Nat.and_lt_two_pow _ (by decide)
  have a2 : lo &&& 0xFC00 < 2 ^ 16 := Nat.and_lt_two_pow _ (by decide)
  omega

theorem pair_value {hi lo : Nat} (_ : hi < 0x10000) (h2 : lo < 0x10000) :
    0x00010000 ||| ((((hi <<< 16) + lo) &&& 0x03FF0000) >>> 6) ||| (((hi <<< 16) + lo) &&& 0x000003FF)
      = codePairValue hi lo := by
  unfold codePairValue
  have e1 : ((hi <<< 16) + lo) &&& 0x03FF0000 = (hi % 1024) * 2 ^ 16 := by
    rw [Nat.shiftLeft_eq, show (0x03FF0000 : Nat) = 0x3FF * 2 ^ 16 + 0 by decide,
      and_split _ _ _ _ (by simpa using h2) (by decide)]
    have : hi &&& 0x3FF = hi % 1024 := and_mask hi 10
    rw [this]; simp
  have e2 : ((hi <<< 16) + lo) &&& 0x3FF = lo % 1024 := by
    have : ((hi <<< 16) + lo) &&& 0x3FF = ((hi <<< 16) + lo) % 1024 := and_mask _ 10
    rw [this, Nat.shiftLeft_eq]; omega
  rw [e1, e2, Nat.shiftRight_eq_div_pow]
  congr 2
  omega

theorem codePairValue_lt (hi lo : Nat) : codePairValue hi lo < 0x200000 := by
  unfold codePairValue
  apply Nat.or_lt_two_pow (n := 21)
  · apply Nat.or_lt_two_pow (n := 21)
    · decide
    · omega
  · omega

theorem codePairValue_ge (hi lo : Nat) : 0x10000 ≤ codePairValue hi lo := by
  unfold codePairValue
  exact Nat.le_trans Nat.left_le_or Nat.left_le_or

theorem nb_eq (n : Nat) : nb n = UInt8.ofNat n := rfl

theorem surL_pair {h1 h2 : Bytes} {hi lo : Nat} (ha : Hex4 h1 hi) (hb : Hex4 h2 lo) (t : Bytes) :
    surL hi (0x5C :: 0x75 :: h2 ++ t) =
      if highSurrogate hi ∧ lowSurrogate lo then .ok (codePair hi lo, 6) else throwStd := by
  have l1 := hex4_lt ha
  have l2 := hex4_lt hb
  simp only [surL, List.cons_append, ne_eq, not_true_eq_false, if_false, hex4_hexL hb, Res.ok_bind]
  rw [pair_value l1 l2]
  have hm := pair_mask l1 l2
  by_cases hp : highSurrogate hi ∧ lowSurrogate lo
  · rw [if_neg (fun hn => hn (hm.mpr hp)), if_pos hp]
    have hv1 := codePairValue_ge hi lo
    have hv2 := codePairValue_lt hi lo
    simp only [codePair, utf8, Res.pure_eq]
    rw [if_neg (show ¬ codePairValue hi lo < 0x80 by omega), if_neg (show ¬ codePairValue hi lo < 0x800 by omega),
      if_neg (show ¬ codePairValue hi lo < 0x10000 by omega), orF0 hv2, or80, or80, or80]
    simp only [Nat.shiftRight_eq_div_pow, nb_eq]
  · rw [if_pos (fun hn => hp (hm.mp hn)), if_neg hp]

theorem uniL_basic {h : Bytes} {v : Nat} (hv : Hex4 h v) (hs : ¬ highSurrogate v) (t : Bytes) :
    uniL (h ++ t) = .ok (utf8 v, 4) := by
  have hlt := hex4_lt hv
  simp only [uniL, hex4_hexL hv, Res.ok_bind, utf8, Res.pure_eq]
  by_cases c1 : v ≤ 0x7F
  · rw [if_pos c1, if_pos (show v < 0x80 by omega)]
    have : v &&& 0x7F = v % 128 := and_mask v 7
    rw [this, Nat.mod_eq_of_lt (by omega), nb_eq]
  rw [if_neg c1, if_neg (show ¬ v < 0x80 by omega)]
  by_cases c2 : v ≤ 0x7FF
  · rw [if_pos c2, if_pos (show v < 0x800 by omega), orC0 (by omega), or80]; simp only [nb_eq]
  rw [if_neg c2, if_neg (show ¬ v < 0x800 by omega), if_pos (show v ≤ 0xFFFF by omega), if_pos (show v < 0x10000 by omega)]
  rw [if_pos (show v &&& 0xFC00 ≠ 0xD800 by rw [ne_eq, and_FC00_iff hlt]; exact hs), orE0 (by omega), or80, or80]
  simp only [nb_eq, Nat.shiftRight_eq_div_pow]

theorem uniL_high {h : Bytes} {v : Nat} (hv : Hex4 h v) (hs : highSurrogate v) (t : Bytes) :
    uniL (h ++ t) = (do let (o, k) ← surL v t; return (o, 4 + k)) := by
  have hlt := hex4_lt hv
  have hs' := hs
  unfold highSurrogate at hs'
  simp only [uniL, hex4_hexL hv, Res.ok_bind]
  rw [if_neg (show ¬ v ≤ 0x7F by omega), if_neg (show ¬ v ≤ 0x7FF by omega), if_pos (show v ≤ 0xFFFF by omega)]
  rw [if_neg (show ¬ (v &&& 0xFC00 ≠ 0xD800) by rw [ne_eq, and_FC00_iff hlt, Classical.not_not]; exact hs)]
  have : (h ++ t).drop 4 = t := by rw [← hex4_length hv]; simp
  rw [this]

theorem shortEsc_iff {c d : Byte} : ShortEsc c d ↔ shortEsc c = some d := by
  constructor
  · intro h; cases h <;> rfl
  · intro h
    unfold shortEsc at h
    repeat' split at h
    all_goals first
      | (simp only [Option.some.injEq] at h; subst h; rename_i hc; rw [hc]; constructor)
      | simp at h

theorem shortEsc_u : shortEsc 0x75 = none := by decide

theorem unesc_cons {c cs} : unesc (c :: cs) = (do
    let (o, k) ← stepL c cs
    let r ← unesc (cs.drop k)
    return o ++ r) := by rw [unesc]

theorem stepL_basic {t o : Bytes} (h : BasicItem t o) (ts : Bytes) :
    ∃ c cs, t = c :: cs ∧ stepL c (cs ++ ts) = .ok (o, cs.length) := by
  cases h with
  | raw c h1 h2 h3 =>
    refine ⟨c, [], rfl, ?_⟩
    unfold stepL
    rw [if_neg (by rw [UInt8.lt_iff_toNat_lt]; simpa using h1), if_pos h3]; rfl
  | short h =>
    rename_i c d
    refine ⟨0x5C, [c], rfl, ?_⟩
    unfold stepL
    rw [if_neg (by decide), if_neg (by decide)]
    simp only [List.cons_append, shortEsc_iff.mp h, List.length_singleton]
  | uni hv hs =>
    rename_i h v
    refine ⟨0x5C, 0x75 :: h, rfl, ?_⟩
    unfold stepL
    rw [if_neg (by decide), if_neg (by decide)]
    simp only [List.cons_append, shortEsc_u, uniL_basic hv hs, if_true, Res.ok_bind, Res.pure_eq,
      List.length_cons, hex4_length hv]

theorem stepL_pair {t : Bytes} {hi lo : Nat} (h : PairItem t hi lo) (ts : Bytes) :
    ∃ c cs, t = c :: cs ∧ stepL c (cs ++ ts) = .ok (codePair hi lo, cs.length) := by
  cases h with
  | mk ha hb h3 h4 =>
    rename_i h1 h2
    refine ⟨0x5C, 0x75 :: h1 ++ 0x5C :: 0x75 :: h2, rfl, ?_⟩
    unfold stepL
    rw [if_neg (by decide), if_neg (by decide)]
    simp only [List.cons_append, shortEsc_u, if_true, List.append_assoc]
    have := surL_pair ha hb ts
    simp only [List.cons_append] at this
    rw [uniL_high ha h3, this, if_pos (And.intro h3 h4)]
    simp [hex4_length ha, hex4_length hb]

/-- Decoding a well-formed body, with the code's reading of surrogate pairs. -/
theorem unesc_body {t o : Bytes} (h : Body codePair t o) : unesc t = .ok o := by
  induction h with
  | nil => simp [unesc]
  | basic hi hs ih =>
    rename_i t o ts os
    obtain ⟨c, cs, rfl, hstep⟩ := stepL_basic hi ts
    rw [List.cons_append, unesc_cons, hstep]
    simp [ih]
  | pair hi hs ih =>
    rename_i t ts os hi' lo
    obtain ⟨c, cs, rfl, hstep⟩ := stepL_pair hi ts
    rw [List.cons_append, unesc_cons, hstep]
    simp [ih]


/-! ### the closing quote -/

/-- Split a text at its first unescaped quote (left to right reading of escapes). -/
def splitQuote : Bool → Bytes → Option (Bytes × Bytes)
  | _, [] => none
  | true, c :: cs => (splitQuote false cs).map fun (b, p) => (c :: b, p)
  | false, c :: cs =>
    if c = 0x22 then some ([], cs)
    else (splitQuote (c = 0x5C) cs).map fun (b, p) => (c :: b, p)

/-- Escape state after reading a text. -/
def escState : Bool → Bytes → Bool
  | e, [] => e
  | true, _ :: cs => escState false cs
  | false, c :: cs => escState (c = 0x5C) cs

theorem splitQuote_eq {e t b p} (h : splitQuote e t = some (b, p)) : t = b ++ 0x22 :: p := by
  induction t generalizing e b with
  | nil => simp [splitQuote] at h
  | cons c cs ih =>
    cases e with
    | true =>
      simp only [splitQuote, Option.map_eq_some_iff] at h
      obtain ⟨⟨b', p'⟩, h1, h2⟩ := h
      simp at h2; obtain ⟨rfl, rfl⟩ := h2
      simp [ih h1]
    | false =>
      simp only [splitQuote] at h
      split at h
      · rename_i hc; simp at h; obtain ⟨rfl, rfl⟩ := h; simp [hc]
      · simp only [Option.map_eq_some_iff] at h
        obtain ⟨⟨b', p'⟩, h1, h2⟩ := h
        simp at h2; obtain ⟨rfl, rfl⟩ := h2
        simp [ih h1]

theorem escState_append (e : Bool) (a b : Bytes) : escState e (a ++ b) = escState (escState e a) b := by
  induction a generalizing e with
  | nil => rfl
  | cons c cs ih => cases e <;> simp [escState, ih]

theorem escState_true_append (b : Bytes) (c : Byte) : escState true (c :: b) = escState false b := rfl

theorem checkEscape_eq (v : Bytes) : checkEscape v = escState false v := by
  -- induction on the reversed list
  have key : ∀ r : Bytes, (decide ((r.takeWhile (· = (0x5C : Byte))).length % 2 = 1)) = escState false r.reverse := by
    intro r
    induction r with
    | nil => rfl
    | cons c cs ih =>
      rw [List.reverse_cons, escState_append, ← ih]
      by_cases hc : c = 0x5C
      · subst hc
        simp only [List.takeWhile_cons, decide_true, if_true, List.length_cons]
        by_cases h : (cs.takeWhile (· = (0x5C : Byte))).length % 2 = 1
        · rw [decide_eq_true h]
          have : ¬ ((cs.takeWhile (· = (0x5C : Byte))).length + 1) % 2 = 1 := by omega
          rw [decide_eq_false this]; rfl
        · rw [decide_eq_false h]
          have : ((cs.takeWhile (· = (0x5C : Byte))).length + 1) % 2 = 1 := by omega
          rw [decide_eq_true this]; rfl
      · simp only [List.takeWhile_cons, hc, decide_false, Bool.false_eq_true, if_false]
        cases (decide ((cs.takeWhile (· = (0x5C : Byte))).length % 2 = 1)) <;> simp [escState, hc]
  have := key v.reverse
  rw [List.reverse_reverse] at this
  exact this

/-- A piece without quotes followed by a quote. -/
theorem splitQuote_seg {e : Bool} {seg t : Bytes} (hq : ∀ c ∈ seg, c ≠ 0x22) :
    splitQuote e (seg ++ 0x22 :: t) =
      if escState e seg then (splitQuote false t).map fun (b, p) => (seg ++ 0x22 :: b, p)
      else some (seg, t) := by
  induction seg generalizing e with
  | nil =>
    cases e with
    | true => simp [splitQuote, escState]
    | false => simp [splitQuote, escState]
  | cons c cs ih =>
    have hc : c ≠ 0x22 := hq c (by simp)
    have hcs : ∀ c ∈ cs, c ≠ 0x22 := fun x hx => hq x (by simp [hx])
    cases e with
    | true =>
      simp only [List.cons_append, splitQuote, escState, ih hcs]
      split <;> rename_i h <;> simp [Option.map_map, Function.comp_def, h]
    | false =>
      simp only [List.cons_append, splitQuote, escState, if_neg hc, ih hcs]
      split <;> rename_i h <;> simp [Option.map_map, Function.comp_def, h]

theorem splitQuote_none {e : Bool} {seg : Bytes} (hq : ∀ c ∈ seg, c ≠ 0x22) : splitQuote e seg = none := by
  induction seg generalizing e with
  | nil => cases e <;> rfl
  | cons c cs ih =>
    have hc : c ≠ 0x22 := hq c (by simp)
    have hcs : ∀ c ∈ cs, c ≠ 0x22 := fun x hx => hq x (by simp [hx])
    cases e <;> simp [splitQuote, hc, ih hcs]

theorem upTo_le (d : Byte) (t : Bytes) : StrIn.upTo d t ≤ t.length := by
  induction t with
  | nil => simp [StrIn.upTo]
  | cons c cs ih => simp only [StrIn.upTo]; split <;> simp; omega

theorem upTo_seg (d : Byte) (t : Bytes) : ∀ c ∈ t.take (StrIn.upTo d t), c ≠ d := by
  induction t with
  | nil => simp [StrIn.upTo]
  | cons c cs ih =>
    simp only [StrIn.upTo]
    split
    · simp
    · rename_i h
      intro x hx
      simp at hx
      rcases hx with rfl | hx
      · exact h
      · exact ih x hx

theorem upTo_split (d : Byte) (t : Bytes) (h : StrIn.upTo d t < t.length) :
    t = t.take (StrIn.upTo d t) ++ d :: t.drop (StrIn.upTo d t + 1) := by
  induction t with
  | nil => simp at h
  | cons c cs ih =>
    simp only [StrIn.upTo] at h ⊢
    by_cases hc : c = d
    · simp [hc]
    · rw [if_neg hc] at h ⊢
      have := ih (by simpa using h)
      simpa using this

/-- Reading to a delimiter from a good position. -/
theorem readTo_found {s : StrIn} {d : Byte} {seg t : Bytes} (hr : s.rest = seg ++ d :: t)
    (hq : ∀ c ∈ seg, c ≠ d) :
    s.readTo d = .ok (seg, true, { s with pos := s.pos + (seg.length + 1), good := true }) ∧
      s.pos + (seg.length + 1) + t.length = s.data.length := by
  have hlen := congrArg List.length hr
  simp [StrIn.rest] at hlen
  have hu : StrIn.upTo d (seg ++ d :: t) = seg.length := by
    clear hr hlen
    induction seg with
    | nil => simp [StrIn.upTo]
    | cons c cs ih =>
      have hc : c ≠ d := hq c (by simp)
      simp only [List.cons_append, StrIn.upTo, if_neg hc, List.length_cons]
      rw [ih (fun x hx => hq x (by simp [hx]))]
  unfold StrIn.rest at hr
  unfold StrIn.readTo
  rw [if_neg (by omega), hr, hu]
  have : s.pos + (seg.length + 1) ≤ s.data.length := by omega
  simp only [this, decide_true]
  refine ⟨by simp, by omega⟩

/-- The part of `getStringInto` after the opening quote when a closing quote exists. -/
theorem readMore_found (f : Nat) : ∀ (t : Bytes) (s : StrIn) (value body post : Bytes),
    t.length < f → s.rest = t → splitQuote false t = some (body, post) →
    Lexer.readMore f s value =
      .ok (value ++ [0x22] ++ body, { s with pos := s.pos + (body.length + 1), good := true }) := by
  induction f with
  | zero => intro t s value body post h; omega
  | succ f ih =>
    intro t s value body post hf hr hsp
    by_cases hu : StrIn.upTo 0x22 t < t.length
    · have hsplit := upTo_split 0x22 t hu
      have hseg := upTo_seg 0x22 t
      generalize t.take (StrIn.upTo 0x22 t) = seg at hsplit hseg
      generalize t.drop (StrIn.upTo 0x22 t + 1) = t' at hsplit
      subst hsplit
      rw [splitQuote_seg hseg] at hsp
      obtain ⟨hrd, hl⟩ := readTo_found hr hseg
      simp only [Lexer.readMore, hrd, Res.ok_bind]
      have hce := checkEscape_eq seg
      by_cases he : escState false seg = true
      · rw [if_pos he] at hsp
        simp only [Option.map_eq_some_iff] at hsp
        obtain ⟨⟨b', p'⟩, h1, h2⟩ := hsp
        simp at h2
        obtain ⟨rfl, rfl⟩ := h2
        have hne : seg ≠ [] := by
          intro h; subst h; simp [escState] at he
        rw [if_pos ⟨List.length_pos_iff.mpr hne, by rw [hce, he]⟩]
        have hr' : ({ s with pos := s.pos + (seg.length + 1), good := true } : StrIn).rest = t' := by
          unfold StrIn.rest at hr ⊢
          simp only
          rw [← List.drop_drop, hr]
          simp
        rw [ih t' _ _ b' p' (by simp at hf; omega) hr' h1]
        simp
        omega
      · rw [if_neg he] at hsp
        simp at hsp
        obtain ⟨rfl, rfl⟩ := hsp
        have he' : checkEscape seg = false := by rw [hce]; simpa using he
        simp [he']
    · have hu' : StrIn.upTo 0x22 t = t.length := by have := upTo_le 0x22 t; omega
      have hseg := upTo_seg 0x22 t
      rw [hu', List.take_length] at hseg
      rw [splitQuote_none hseg] at hsp
      simp at hsp

theorem get_cons {s : StrIn} {c : Byte} {t : Bytes} (hg : s.good = true) (hr : s.rest = c :: t) :
    s.get = (sext c, { s with pos := s.pos + 1 }) ∧ ({ s with pos := s.pos + 1 } : StrIn).rest = t := by
  unfold StrIn.rest at hr ⊢
  have hlen := congrArg List.length hr
  simp at hlen
  have h0 : s.pos < s.data.length := by omega
  have hc : s.data.getD s.pos 0 = c := by
    rw [List.drop_eq_getElem_cons h0] at hr
    simp [h0]
    exact (List.cons.inj hr).1
  constructor
  · unfold StrIn.get
    rw [if_pos ⟨hg, h0⟩, hc]
  · simp only
    rw [← List.drop_drop, hr]; rfl

theorem toChar_sext (c : Byte) : toChar (sext c) = c := by
  refine forall_byte (P := fun c => toChar (sext c) = c) ?_ c
  decide +kernel

/-- `getStringInto` on a quoted text. -/
theorem getStringInto_found (l : Lexer) (t body post : Bytes) (hg : l.inp.good = true)
    (hr : l.inp.rest = 0x22 :: t) (hsp : splitQuote false t = some (body, post)) :
    l.getStringInto = (do
      let v ← (if l.convertBackSlash then unescapeInPlace body else .ok body : Res Bytes)
      return (v, { l with inp := { l.inp with pos := l.inp.pos + (body.length + 2), good := true } })) := by
  obtain ⟨hget, hr1⟩ := get_cons hg hr
  unfold Lexer.getStringInto
  rw [hget]
  simp only [toChar_sext, ne_eq, not_true_eq_false, if_false]
  by_cases hu : StrIn.upTo 0x22 t < t.length
  · have hsplit := upTo_split 0x22 t hu
    have hseg := upTo_seg 0x22 t
    generalize t.take (StrIn.upTo 0x22 t) = seg at hsplit hseg
    generalize t.drop (StrIn.upTo 0x22 t + 1) = t' at hsplit
    subst hsplit
    rw [splitQuote_seg hseg] at hsp
    obtain ⟨hrd, hl⟩ := readTo_found hr1 hseg
    simp only [hrd, Res.ok_bind]
    have hce := checkEscape_eq seg
    by_cases he : escState false seg = true
    · rw [if_pos he] at hsp
      simp only [Option.map_eq_some_iff] at hsp
      obtain ⟨⟨b', p'⟩, h1, h2⟩ := hsp
      simp at h2
      obtain ⟨rfl, rfl⟩ := h2
      have hne : seg ≠ [] := by
        intro h; subst h; simp [escState] at he
      rw [if_pos ⟨List.length_pos_iff.mpr hne, by rw [hce, he]⟩]
      have hr' : ({ l.inp with pos := l.inp.pos + 1 + (seg.length + 1), good := true } : StrIn).rest = t' := by
        unfold StrIn.rest at hr1 ⊢
        simp only at hr1 ⊢
        rw [← List.drop_drop, hr1]
        simp
      have hdl : t'.length < l.inp.data.length + 1 := by
        have := congrArg List.length hr'; simp [StrIn.rest] at this; omega
      rw [readMore_found _ t' _ _ b' p' hdl hr' h1]
      simp only [Res.ok_bind, List.append_assoc, List.singleton_append]
      have : l.inp.pos + 1 + (seg.length + 1) + (b'.length + 1) = l.inp.pos + ((seg ++ 0x22 :: b').length + 2) := by
        simp; omega
      rw [this]
    · rw [if_neg he] at hsp
      simp at hsp
      obtain ⟨rfl, rfl⟩ := hsp
      have he' : checkEscape seg = false := by rw [hce]; simpa using he
      rw [if_neg (by simp [he'])]
      simp only [Res.ok_bind]
      have : l.inp.pos + 1 + (seg.length + 1) = l.inp.pos + (seg.length + 2) := by omega
      rw [this]
  · have hu' : StrIn.upTo 0x22 t = t.length := by have := upTo_le 0x22 t; omega
    have hseg := upTo_seg 0x22 t
    rw [hu', List.take_length] at hseg
    rw [splitQuote_none hseg] at hsp
    simp at hsp

/-! ### bodies end at their closing quote -/

theorem hex_ne {c v} (h : Hex c v) : c ≠ 0x22 ∧ c ≠ 0x5C := by
  have hc := hex_convert.mp h
  constructor <;> (rintro rfl; simp [convertHexToDec] at hc)

theorem splitQuote_raw {c : Byte} (h1 : c ≠ 0x22) (h2 : c ≠ 0x5C) (t : Bytes) :
    splitQuote false (c :: t) = (splitQuote false t).map fun (b, p) => (c :: b, p) := by
  simp [splitQuote, h1, h2]

theorem splitQuote_hex4 {h : Bytes} {v : Nat} (hv : Hex4 h v) (t : Bytes) :
    splitQuote false (h ++ t) = (splitQuote false t).map fun (b, p) => (h ++ b, p) := by
  cases hv with
  | mk ha hb hc hd =>
    simp only [List.cons_append, List.nil_append]
    rw [splitQuote_raw (hex_ne ha).1 (hex_ne ha).2, splitQuote_raw (hex_ne hb).1 (hex_ne hb).2,
      splitQuote_raw (hex_ne hc).1 (hex_ne hc).2, splitQuote_raw (hex_ne hd).1 (hex_ne hd).2]
    simp [Option.map_map, Function.comp_def]

theorem splitQuote_esc (c : Byte) (t : Bytes) :
    splitQuote false (0x5C :: c :: t) = (splitQuote false t).map fun (b, p) => (0x5C :: c :: b, p) := by
  simp [splitQuote, Option.map_map, Function.comp_def]

theorem splitQuote_basic {t o : Bytes} (h : BasicItem t o) (ts : Bytes) :
    splitQuote false (t ++ ts) = (splitQuote false ts).map fun (b, p) => (t ++ b, p) := by
  cases h with
  | raw c h1 h2 h3 => simpa using splitQuote_raw h2 h3 ts
  | short h => simpa using splitQuote_esc _ ts
  | uni hv hs =>
    simp only [List.cons_append]
    rw [splitQuote_esc, splitQuote_hex4 hv]
    simp [Option.map_map, Function.comp_def]

theorem splitQuote_pair {t : Bytes} {hi lo : Nat} (h : PairItem t hi lo) (ts : Bytes) :
    splitQuote false (t ++ ts) = (splitQuote false ts).map fun (b, p) => (t ++ b, p) := by
  cases h with
  | mk ha hb h3 h4 =>
    simp only [List.cons_append, List.append_assoc]
    rw [splitQuote_esc, splitQuote_hex4 ha, splitQuote_esc, splitQuote_hex4 hb]
    simp [Option.map_map, Function.comp_def]

/-- A well-formed body followed by a quote is split there. -/
theorem splitQuote_body {pr : Nat → Nat → Bytes} {t o : Bytes} (h : Body pr t o) (post : Bytes) :
    splitQuote false (t ++ 0x22 :: post) = some (t, post) := by
  induction h with
  | nil => simp [splitQuote]
  | basic hi hs ih => rw [List.append_assoc, splitQuote_basic hi, ih]; rfl
  | pair hi hs ih => rw [List.append_assoc, splitQuote_pair hi, ih]; rfl

/-! ### escaping -/

theorem escapeLoop_flatten (chunk t : Bytes) :
    (escapeLoop chunk t).flatten = chunk ++ t.flatMap fun c => if isEscape c then escapeOne c else [c] := by
  induction t generalizing chunk with
  | nil => simp [escapeLoop]
  | cons c cs ih =>
    simp only [escapeLoop]
    split
    · rename_i h; simp [ih, h]
    · rename_i h; simp [ih, h]

theorem escapeString_eq (t : Bytes) :
    escapeString t = t.flatMap fun c => if isEscape c then escapeOne c else [c] := by
  unfold escapeString escapeWrites
  rw [escapeLoop_flatten]; simp

theorem hexDigit_hex {n : Nat} (h : n < 16) : Hex (hexDigit n) n := by
  unfold hexDigit
  split
  · exact Hex.dec n (by assumption)
  · have := Hex.lower (n - 10) (by omega)
    rwa [show 10 + (n - 10) = n by omega] at this

theorem hex_zero : Hex 0x30 0 := Hex.dec 0 (by decide)

theorem escape_item (c : Byte) : BasicItem (if isEscape c then escapeOne c else [c]) [c] := by
  split
  · rename_i h
    unfold escapeOne
    split
    · rename_i hc; subst hc; exact .short .quote
    split
    · rename_i hc; subst hc; exact .short .backslash
    split
    · rename_i hc; subst hc; exact .short .b
    split
    · rename_i hc; subst hc; exact .short .f
    split
    · rename_i hc; subst hc; exact .short .n
    split
    · rename_i hc; subst hc; exact .short .r
    split
    · rename_i hc; subst hc; exact .short .t
    · rename_i h1 h2 _ _ _ _ _
      have hlt : c.toNat ≤ 0x1f := by
        simp only [isEscape, decide_eq_true_eq] at h
        rcases h with h | h | h
        · exact h
        · exact absurd h h1
        · exact absurd h h2
      have hv := Hex4.mk hex_zero hex_zero (hexDigit_hex (n := c.toNat / 16) (by omega))
        (hexDigit_hex (n := c.toNat % 16) (by omega))
      have := BasicItem.uni hv (by unfold highSurrogate; omega)
      rw [show 0 * 4096 + 0 * 256 + c.toNat / 16 * 16 + c.toNat % 16 = c.toNat by omega] at this
      have hu : utf8 c.toNat = [c] := by
        unfold utf8; rw [if_pos (by omega)]; simp
      rw [hu] at this
      exact this
  · rename_i h
    simp only [isEscape, decide_eq_true_eq, not_or] at h
    exact .raw c (by omega) h.2.1 h.2.2

theorem escape_body (pr : Nat → Nat → Bytes) (t : Bytes) : Body pr (escapeString t) t := by
  rw [escapeString_eq]
  induction t with
  | nil => exact .nil
  | cons c cs ih =>
    have := Body.basic (escape_item c) ih
    simpa using this

end Thors
