import Verif.Spec.Format
/-
The parser of the format specification of `TA::Ser` accepts the documented specifications, and nothing else.
-/
namespace Thors
open Spec Spec.Format

namespace Format

theorem isDigit_iff (c : Byte) : isDigit c = true ↔ Digit c (c.toNat - 0x30) := by
  constructor
  · intro h
    simp only [isDigit, Bool.and_eq_true, decide_eq_true_eq, UInt8.le_iff_toNat_le] at h
    have h1 : (0x30 : UInt8).toNat = 48 := rfl
    have h2 : (0x39 : UInt8).toNat = 57 := rfl
    have := Digit.mk (c.toNat - 0x30) (by omega)
    rw [show 0x30 + (c.toNat - 0x30) = c.toNat by omega, UInt8.ofNat_toNat] at this
    exact this
  · intro h
    generalize c.toNat - 0x30 = d at h
    cases h with
    | mk _ hd =>
      have : ∀ i : Fin 10, isDigit (UInt8.ofNat (0x30 + i)) = true := by decide
      exact this ⟨d, hd⟩

theorem digit_val {c : Byte} {d : Nat} (h : Digit c d) : isDigit c = true ∧ c.toNat - 0x30 = d := by
  cases h with
  | mk _ hd =>
    have : ∀ i : Fin 10, isDigit (UInt8.ofNat (0x30 + i)) = true ∧ (UInt8.ofNat (0x30 + i)).toNat - 0x30 = i := by decide
    exact this ⟨d, hd⟩

theorem digits_dec {t : Bytes} {n : Nat} (h : Dec t n) : ∀ k r, digits k (t ++ r) = digits ((k * 10 ^ t.length + n) % 2 ^ 64) r := by
  induction h with
  | one h =>
    intro k r
    obtain ⟨h1, h2⟩ := digit_val h
    simp [digits, h1, h2]
  | @snoc t n d c ht h ih =>
    intro k r
    obtain ⟨h1, h2⟩ := digit_val h
    rw [List.append_assoc, ih]
    simp only [List.cons_append, List.nil_append, digits, h1, h2, if_true, List.length_append, List.length_cons, List.length_nil, Nat.zero_add]
    congr 1
    rw [show k * 10 ^ (t.length + 1) = k * 10 ^ t.length * 10 by rw [Nat.pow_succ, Nat.mul_assoc]]
    generalize k * 10 ^ t.length = x
    omega

theorem digits_num {t : Bytes} {n : Nat} (h : NumText t n) (hn : n < 2 ^ 64) (c : Byte) (hc : isDigit c = false) (r : Bytes) :
    digits 0 (t ++ c :: r) = .ok (n, c :: r) := by
  cases h with
  | none => simp [digits, hc]
  | some h => rw [digits_dec h]; simp [digits, hc]; omega

theorem digits_inv : ∀ (t : Bytes) (p : Bytes) (m k n : Nat) (r : Bytes), NumText p m → digits k t = .ok (n, r) →
    ∃ a q, t = a ++ r ∧ NumText (p ++ a) q ∧ ∃ c cs, r = c :: cs ∧ isDigit c = false
  | [], _, _, _, _, _, _, h => by simp [digits] at h
  | c :: cs, p, m, k, n, r, hp, h => by
    rw [digits] at h
    split at h
    · rename_i hc
      have hd := (isDigit_iff c).1 hc
      have hp' : ∃ q, NumText (p ++ [c]) q := by
        cases hp with
        | none => exact ⟨_, .some (.one hd)⟩
        | some h => exact ⟨_, .some (.snoc h hd)⟩
      obtain ⟨q, hq⟩ := hp'
      obtain ⟨a, q', e, hn, hr⟩ := digits_inv cs (p ++ [c]) q _ _ _ hq h
      exact ⟨c :: a, q', by rw [e]; rfl, by simpa using hn, hr⟩
    · rename_i hc
      obtain ⟨rfl, rfl⟩ := Prod.mk.inj (Res.ok.inj h)
      exact ⟨[], m, rfl, by simpa using hp, c, cs, rfl, by simpa using hc⟩

theorem digits_total : ∀ (t : Bytes) (k : Nat), 0x7D ∈ t → ∃ n r, digits k t = .ok (n, r) ∧ 0x7D ∈ r
  | [], _, h => by simp at h
  | c :: cs, k, h => by
    rw [digits]
    by_cases hc : isDigit c = true
    · rw [if_pos hc]
      refine digits_total cs _ ?_
      rcases List.mem_cons.1 h with e | h
      · subst e; exact absurd hc (by decide)
      · exact h
    · rw [if_neg hc]; exact ⟨k, _, rfl, h⟩

theorem parseForm_spec {a : Bytes} {f : FForm} (h : TypeText a f) (c : Byte) (r : Bytes) (hc : c ≠ 0x4A ∧ c ≠ 0x42 ∧ c ≠ 0x59) :
    parseForm (a ++ c :: r) = .ok (f, c :: r) := by
  cases h <;> simp [parseForm, hc.1, hc.2.1, hc.2.2]

theorem parseType_spec {a : Bytes} {l : Layout} (h : LayoutText a l) (c : Byte) (r : Bytes) (hc : c ≠ 0x2D ∧ c ≠ 0x2A) :
    parseType (a ++ c :: r) = .ok (l, c :: r) := by
  cases h <;> simp [parseType, hc.1, hc.2]

theorem parseForm_total (t : Bytes) (h : 0x7D ∈ t) : ∃ f r a, parseForm t = .ok (f, r) ∧ TypeText a f ∧ t = a ++ r ∧ 0x7D ∈ r := by
  cases t with
  | nil => simp at h
  | cons c cs =>
    rw [parseForm]
    by_cases h1 : c = 0x4A
    · subst h1; exact ⟨_, _, _, rfl, .json, rfl, by simpa using h⟩
    by_cases h2 : c = 0x42
    · subst h2; exact ⟨_, _, _, rfl, .bson, rfl, by simpa using h⟩
    by_cases h3 : c = 0x59
    · subst h3; exact ⟨_, _, _, rfl, .yaml, rfl, by simpa using h⟩
    · rw [if_neg h1, if_neg h2, if_neg h3]; exact ⟨_, _, _, rfl, .none, rfl, h⟩

theorem parseType_total (t : Bytes) (h : 0x7D ∈ t) : ∃ f r a, parseType t = .ok (f, r) ∧ LayoutText a f ∧ t = a ++ r ∧ 0x7D ∈ r := by
  cases t with
  | nil => simp at h
  | cons c cs =>
    rw [parseType]
    by_cases h1 : c = 0x2D
    · subst h1; exact ⟨_, _, _, rfl, .stream, rfl, by simpa using h⟩
    by_cases h2 : c = 0x2A
    · subst h2; exact ⟨_, _, _, rfl, .pretty, rfl, by simpa using h⟩
    · rw [if_neg h1, if_neg h2]; exact ⟨_, _, _, rfl, .none, rfl, h⟩

/-- The first byte of a specification without its type letter, or of what follows it. -/
theorem num_head {t : Bytes} {n : Nat} (h : NumText t n) : t = [] ∨ ∃ c cs, t = c :: cs ∧ isDigit c = true := by
  cases h with
  | none => exact .inl rfl
  | some h =>
    right
    induction h with
    | one h => exact ⟨_, _, rfl, (digit_val h).1⟩
    | snoc _ _ ih => obtain ⟨c, cs, rfl, h⟩ := ih; exact ⟨c, _, rfl, h⟩

theorem not_digit_ne {c : Byte} (h : isDigit c = true) : c ≠ 0x4A ∧ c ≠ 0x42 ∧ c ≠ 0x59 ∧ c ≠ 0x2D ∧ c ≠ 0x2A := by
  refine ⟨?_, ?_, ?_, ?_, ?_⟩ <;> (rintro rfl; exact absurd h (by decide))

theorem tail_head {c d : Bytes} {tab block : Nat} (hc : NumText c tab) (hd : BlockText d block) (r : Bytes) :
    ∃ x xs, c ++ (d ++ 0x7D :: r) = x :: xs ∧ x ≠ 0x4A ∧ x ≠ 0x42 ∧ x ≠ 0x59 ∧ x ≠ 0x2D ∧ x ≠ 0x2A := by
  rcases num_head hc with rfl | ⟨x, xs, rfl, hx⟩
  · cases hd with
    | none => exact ⟨_, _, rfl, by decide⟩
    | some h => exact ⟨_, _, rfl, by decide⟩
  · exact ⟨x, _, rfl, not_digit_ne hx⟩

theorem type_head {b : Bytes} {l : Layout} (hb : LayoutText b l) (t : Bytes) (ht : ∃ x xs, t = x :: xs ∧ x ≠ 0x4A ∧ x ≠ 0x42 ∧ x ≠ 0x59 ∧ x ≠ 0x2D ∧ x ≠ 0x2A) :
    ∃ x xs, b ++ t = x :: xs ∧ x ≠ 0x4A ∧ x ≠ 0x42 ∧ x ≠ 0x59 := by
  cases hb with
  | none => obtain ⟨x, xs, rfl, h1, h2, h3, _⟩ := ht; exact ⟨x, xs, rfl, h1, h2, h3⟩
  | stream => exact ⟨_, _, rfl, by decide⟩
  | pretty => exact ⟨_, _, rfl, by decide⟩

theorem parse_spec {s : Bytes} {f : FForm} {l : Layout} {tab block : Nat} (h : SpecText s f l tab block) (ht : tab < 2 ^ 64) (hb : block < 2 ^ 64) (r : Bytes) :
    parse (s ++ 0x7D :: r) = .ok (⟨f, l, tab, block⟩, 0x7D :: r) := by
  cases h with
  | @mk a b c d _ _ _ _ ha hl hc hd =>
    rw [parse]
    have e : a ++ b ++ c ++ d ++ 0x7D :: r = a ++ (b ++ (c ++ (d ++ 0x7D :: r))) := by simp
    have h1 := tail_head hc hd r
    have h2 := type_head hl _ h1
    rw [e]
    obtain ⟨x, xs, e2, hx⟩ := h2
    rw [e2, parseForm_spec ha x xs hx, ← e2]
    obtain ⟨y, ys, e1, hy⟩ := h1
    simp only [Res.ok_bind]
    rw [e1, parseType_spec hl y ys hy.2.2.2, ← e1]
    simp only [Res.ok_bind]
    cases hd with
    | none =>
      rw [List.nil_append, digits_num hc ht 0x7D (by decide)]
      rfl
    | @some t n hn =>
      rw [show b!"." ++ t ++ 0x7D :: r = 0x2E :: (t ++ 0x7D :: r) by simp, digits_num hc ht 0x2E (by decide)]
      simp only [Res.ok_bind, if_true]
      rw [digits_num hn hb 0x7D (by decide)]
      rfl

theorem parse_inv (t : Bytes) (h : 0x7D ∈ t) : ∃ s r, parse t = .ok (s, r) ∧ ∃ a f l tab block, SpecText a f l tab block ∧ t = a ++ r := by
  obtain ⟨f, r1, a, e1, ha, rfl, h1⟩ := parseForm_total t h
  obtain ⟨l, r2, b, e2, hb, rfl, h2⟩ := parseType_total r1 h1
  obtain ⟨n, r3, e3, h3⟩ := digits_total r2 0 h2
  obtain ⟨c, tab, rfl, hc, x, xs, rfl, hx⟩ := digits_inv r2 [] 0 0 n r3 .none e3
  rw [parse, e1, Res.ok_bind]
  dsimp only
  rw [e2, Res.ok_bind]
  dsimp only
  rw [e3, Res.ok_bind]
  dsimp only
  by_cases hd : x = 0x2E
  · subst hd
    rw [if_pos rfl]
    have h4 : 0x7D ∈ xs := by simpa using h3
    obtain ⟨m, r4, e4, h4⟩ := digits_total xs 0 h4
    obtain ⟨d, block, rfl, hd, _⟩ := digits_inv xs [] 0 0 m r4 .none e4
    rw [e4]
    exact ⟨_, _, rfl, _, f, l, tab, block, .mk ha hb hc (.some hd), by simp⟩
  · rw [if_neg hd]
    exact ⟨_, _, rfl, _, f, l, tab, 0, .mk ha hb hc .none, by simp⟩

theorem toInt_small {n : Nat} (h : n < 2 ^ 31) : toInt n = n := by
  unfold toInt
  rw [Nat.mod_eq_of_lt (by omega), if_pos h]

end Format
end Thors
