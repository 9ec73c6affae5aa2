import Verif.Props.Mongo
/-
C125. Which texts are taken for an ObjectID. C126. The order of dates and time stamps.
-/
namespace Thors.Props
open Thors Spec StrIn

/-! ### C125 -/

/-- The value of a hexadecimal digit, lower or upper case. -/
def digitValue (c : Byte) : Nat :=
  if c.toNat ≤ 0x39 then c.toNat - 0x30 else if 0x61 ≤ c.toNat then c.toNat - 0x61 + 10 else c.toNat - 0x41 + 10

/-- The number a sequence of hexadecimal digits denotes. -/
def hexNumber (s : Bytes) : Nat := s.foldl (fun n c => 16 * n + digitValue c) 0

private theorem digit_facts {c : Byte} (h : isHexDigit c = true) :
    isSpace c = false ∧ c ≠ 0x2D ∧ oidDigit c = (digitValue c : Int) ∧ digitValue c < 16 := by
  simp only [isHexDigit, UInt8.le_iff_toNat_le, decide_eq_true_eq] at h
  have e1 : (0x30 : Byte).toNat = 0x30 := rfl
  have e2 : (0x39 : Byte).toNat = 0x39 := rfl
  have e3 : (0x61 : Byte).toNat = 0x61 := rfl
  have e4 : (0x66 : Byte).toNat = 0x66 := rfl
  have e5 : (0x41 : Byte).toNat = 0x41 := rfl
  have e6 : (0x46 : Byte).toNat = 0x46 := rfl
  rw [e1, e2, e3, e4, e5, e6] at h
  refine ⟨?_, ?_, ?_, ?_⟩
  · simp only [isSpace, decide_eq_false_iff_not]
    rintro (rfl | rfl | rfl | rfl | rfl | rfl) <;> revert h <;> decide
  · rintro rfl; revert h; decide
  · simp only [oidDigit, digitValue, sext, UInt8.le_iff_toNat_le, e1, e2, e3, e4]
    rcases h with h | h | h
    · rw [if_pos (by omega), if_pos (by omega)]; omega
    · rw [if_neg (by omega), if_pos (by omega), if_neg (by omega), if_pos (by omega)]; omega
    · rw [if_neg (by omega), if_neg (by omega), if_pos (by omega), if_neg (by omega), if_neg (by omega)]; omega
  · simp only [digitValue]; split <;> (try split) <;> omega

private theorem loop_digits (dash : Bool) (rest : Bytes) : ∀ (xs : Bytes) (k loop : Nat) (c : Option Byte) (r : Nat), (∀ x ∈ xs, isHexDigit x = true) →
    r < 16 ^ k → k + xs.length ≤ 16 →
    readHexLoop dash xs.length loop c (xs ++ rest) r = .ok (((xs.foldl (fun n c => 16 * n + digitValue c) r : Nat) : Int), rest) ∧
      xs.foldl (fun n c => 16 * n + digitValue c) r < 16 ^ (k + xs.length)
  | [], k, loop, c, r, _, hr, _ => by simp [readHexLoop, hr]
  | x :: xs, k, loop, c, r, hx, hr, hk => by
    obtain ⟨h1, h2, h3, h4⟩ := digit_facts (hx x (by simp))
    rw [List.length_cons] at hk
    have hp : 16 ^ (k + 1) ≤ 16 ^ 16 := Nat.pow_le_pow_right (by decide) (by omega)
    have hb : 16 * r + digitValue x < 16 ^ (k + 1) := by rw [Nat.pow_succ]; omega
    have hm : ((r : Int) * 16 + oidDigit x) % 2 ^ 64 = ((16 * r + digitValue x : Nat) : Int) := by
      rw [h3]
      have : (16 * r + digitValue x : Nat) < 2 ^ 64 := Nat.lt_of_lt_of_le hb (Nat.le_trans hp (by decide))
      omega
    have ih := loop_digits dash rest xs (k + 1) (loop + 1) (some x) (16 * r + digitValue x) (fun y hy => hx y (by simp [hy])) hb (by omega)
    rw [List.length_cons, List.cons_append, readHexLoop, extractChar, List.dropWhile_cons_of_neg (by simp [h1])]
    simp only
    rw [if_neg (by simp [h2])]
    simp only
    rw [hm, ih.1, List.foldl_cons, show k + (xs.length + 1) = k + 1 + xs.length by omega]
    exact ⟨rfl, ih.2⟩

private theorem number_digits (n : Nat) (dash : Bool) (rest xs : Bytes) (hn : xs.length = n) (hx : ∀ x ∈ xs, isHexDigit x = true) (h16 : n ≤ 16) :
    readNumberMaxLen n dash (xs ++ rest) = .ok ((hexNumber xs : Int), rest) ∧ hexNumber xs < 16 ^ n := by
  subst hn
  have := loop_digits dash rest xs 0 0 none 0 hx (by decide) (by omega)
  simpa [readNumberMaxLen, hexNumber] using this

/-- C125: 24 hexadecimal digits, lower or upper case, are read into any ObjectID as the numbers they denote; what follows is left alone. -/
theorem C125_digits_partial (old : ObjectID) (s1 s2 s3 rest : Bytes) (h1 : s1.length = 8) (h2 : s2.length = 10) (h3 : s3.length = 6)
    (hx : ∀ c ∈ s1 ++ s2 ++ s3, isHexDigit c = true) :
    ∃ o, old.readText (s1 ++ s2 ++ s3 ++ rest) = .ok (o, rest) ∧
      InRange i32 o.timestamp ∧ o.timestamp % 2 ^ 32 = hexNumber s1 ∧ o.random = hexNumber s2 ∧ o.counter = hexNumber s3 := by
  obtain ⟨e1, b1⟩ := number_digits 8 false (s2 ++ (s3 ++ rest)) s1 h1 (fun x h => hx x (by simp [h])) (by decide)
  obtain ⟨e2, b2⟩ := number_digits 10 true (s3 ++ rest) s2 h2 (fun x h => hx x (by simp [h])) (by decide)
  obtain ⟨e3, b3⟩ := number_digits 6 true rest s3 h3 (fun x h => hx x (by simp [h])) (by decide)
  refine ⟨⟨castTo i32 (hexNumber s1), castTo i64 (hexNumber s2), castTo i32 (hexNumber s3), old.str⟩, ?_, ?_, ?_, ?_, ?_⟩
  · simp only [ObjectID.readText, List.append_assoc, e1, e2, e3, Res.ok_bind, Res.pure_eq]
  all_goals simp only [castTo, i32, i64, InRange]
  all_goals (first | (split <;> simp <;> omega) | (simp; omega))

/-- The characters of a text that are not white space. -/
def blackCount (s : Bytes) : Nat := (s.filter fun c => !isSpace c).length

private theorem extract_none {s : Bytes} (c : Option Byte) (h : blackCount s = 0) : extractChar c s = (c, []) := by
  have : s.dropWhile isSpace = [] := by
    simp only [blackCount, List.length_eq_zero_iff, List.filter_eq_nil_iff] at h
    induction s with
    | nil => rfl
    | cons x xs ih =>
      rw [List.dropWhile_cons_of_pos (by simpa using h x (by simp))]
      exact ih fun y hy => h y (by simp [hy])
  rw [extractChar, this]

private theorem extract_some : ∀ {s : Bytes} (c : Option Byte), 0 < blackCount s → ∃ x s', extractChar c s = (some x, s') ∧ blackCount s' = blackCount s - 1 ∧ x ∈ s ∧ ∀ y ∈ s', y ∈ s
  | [], c, h => by simp [blackCount] at h
  | x :: xs, c, h => by
    by_cases hx : isSpace x = true
    · have hb : blackCount (x :: xs) = blackCount xs := by simp [blackCount, hx]
      obtain ⟨y, s', e, h1, h2, h3⟩ := extract_some c (by rwa [hb] at h)
      refine ⟨y, s', ?_, by rw [h1, hb], by simp [h2], fun z hz => by simp [h3 z hz]⟩
      rw [extractChar] at e ⊢
      rwa [List.dropWhile_cons_of_pos hx]
    · refine ⟨x, xs, ?_, by simp [blackCount, hx], by simp, fun y hy => by simp [hy]⟩
      rw [extractChar, List.dropWhile_cons_of_neg hx]

private theorem loop_any (dash : Bool) : ∀ (n loop : Nat) (c : Option Byte) (s : Bytes) (r : Int), (0x2D : Byte) ∉ s → c ≠ some 0x2D → (c ≠ none ∨ 0 < blackCount s) →
    ∃ v s', readHexLoop dash n loop c s r = .ok (v, s') ∧ blackCount s' = blackCount s - n ∧ (0x2D : Byte) ∉ s'
  | 0, loop, c, s, r, hd, _, _ => ⟨r, s, rfl, rfl, hd⟩
  | n + 1, loop, c, s, r, hd, hc, h => by
    rw [readHexLoop]
    by_cases hb : blackCount s = 0
    · rw [extract_none c hb]
      simp only
      rw [if_neg (by simp [hc])]
      simp only
      cases c with
      | none => simp [hb] at h
      | some x =>
        obtain ⟨v, s', e, h1, h2⟩ := loop_any dash n (loop + 1) (some x) [] ((r * 16 + oidDigit x) % 2 ^ 64) (by simp) hc (.inl (by simp))
        exact ⟨v, s', e, by rw [h1, hb]; simp [blackCount], h2⟩
    · obtain ⟨x, t, e, h1, h2, h3⟩ := extract_some c (by omega : 0 < blackCount s)
      rw [e]
      simp only
      have hx : (some x : Option Byte) ≠ some 0x2D := by rintro ⟨⟩; exact hd h2
      rw [if_neg (by rintro ⟨a, -⟩; exact hx a)]
      simp only
      obtain ⟨v, s', e, h4, h5⟩ := loop_any dash n (loop + 1) (some x) t ((r * 16 + oidDigit x) % 2 ^ 64) (fun h => hd (h3 _ h)) hx (.inl (by simp))
      exact ⟨v, s', e, by omega, h5⟩

private theorem loop_empty (dash : Bool) (n : Nat) (s : Bytes) (h : blackCount s = 0) : readNumberMaxLen (n + 1) dash s = .ub := by
  rw [readNumberMaxLen, readHexLoop, extract_none none h]
  simp

private theorem readText_any (old : ObjectID) (s : Bytes) (hd : (0x2D : Byte) ∉ s) :
    (19 ≤ blackCount s → ∃ o t, old.readText s = .ok (o, t)) ∧ (blackCount s < 19 → old.readText s = .ub) := by
  have part : ∀ (n : Nat) (dash : Bool) (s : Bytes), (0x2D : Byte) ∉ s → 0 < blackCount s →
      ∃ v s', readNumberMaxLen n dash s = .ok (v, s') ∧ blackCount s' = blackCount s - n ∧ (0x2D : Byte) ∉ s' :=
    fun n dash s h1 h2 => loop_any dash n 0 none s 0 h1 (by simp) (.inr h2)
  constructor
  · intro h
    obtain ⟨v1, t1, e1, b1, d1⟩ := part 8 false s hd (by omega)
    obtain ⟨v2, t2, e2, b2, d2⟩ := part 10 true t1 d1 (by omega)
    obtain ⟨v3, t3, e3, -, -⟩ := part 6 true t2 d2 (by omega)
    simp only [ObjectID.readText, e1, e2, e3, Res.ok_bind, Res.pure_eq]
    exact ⟨_, _, rfl⟩
  · intro h
    by_cases h0 : blackCount s = 0
    · simp only [ObjectID.readText, loop_empty _ 7 _ h0]; rfl
    · obtain ⟨v1, t1, e1, b1, d1⟩ := part 8 false s hd (by omega)
      by_cases h1 : blackCount t1 = 0
      · simp only [ObjectID.readText, e1, Res.ok_bind, loop_empty _ 9 _ h1]; rfl
      · obtain ⟨v2, t2, e2, b2, d2⟩ := part 10 true t1 d1 (by omega)
        simp only [ObjectID.readText, e1, e2, Res.ok_bind, loop_empty _ 5 t2 (by omega)]; rfl

/-- C125 is false: no text is ever refused. A text (without dashes) that has at least nineteen characters besides white space is taken for an
ObjectID, whatever these characters are; for a shorter one an uninitialised `char` is used. -/
theorem C125_false (s : Bytes) (hd : (0x2D : Byte) ∉ s) :
    (19 ≤ blackCount s → ∃ o, ObjectID.ofText s = .ok o) ∧ (blackCount s < 19 → ObjectID.ofText s = .ub) := by
  obtain ⟨h1, h2⟩ := readText_any ⟨0, 0, 0, []⟩ s hd
  constructor
  · intro h
    obtain ⟨o, t, e⟩ := h1 h
    exact ⟨o, by rw [ObjectID.ofText, e]; rfl⟩
  · intro h
    rw [ObjectID.ofText, h2 h]; rfl

/-- The same for a JSON string, read into any ObjectID: the JSON text of any such string `s`. -/
theorem C125_json_false (old : ObjectID) (s post : Bytes) (hd : (0x2D : Byte) ∉ s) (p : JsonP) (hc : p.lex.convertBackSlash = true) (hg : p.lex.inp.good = true)
    (hr : p.lex.inp.rest = jsonString s ++ post) :
    (19 ≤ blackCount s → ∃ o p', old.readJson p = .ok (o, p')) ∧ (blackCount s < 19 → old.readJson p = .ub) := by
  obtain ⟨l', e, -⟩ := C01_string_round_trip s post p.lex hc hg hr
  obtain ⟨h1, h2⟩ := readText_any old s hd
  simp only [ObjectID.readJson, JsonP.getStr, e, Res.ok_bind, Res.pure_eq]
  constructor
  · intro h
    obtain ⟨o, t, e⟩ := h1 h
    exact ⟨o, _, by rw [e]; rfl⟩
  · intro h
    rw [h2 h]; rfl

/-- non-vacuity: an identifier in capital letters, a sentence that is taken for one, and a text that is too short. -/
example : (∃ o, ObjectID.readText ⟨1, 2, 3, []⟩ (b!"507F1F77" ++ b!"BCF86CD799" ++ b!"43901A" ++ b!" etc.") = .ok (o, b!" etc.") ∧
      InRange i32 o.timestamp ∧ o.timestamp % 2 ^ 32 = hexNumber b!"507F1F77" ∧ o.random = hexNumber b!"BCF86CD799" ∧ o.counter = hexNumber b!"43901A") ∧
    hexNumber b!"507F1F77" = 0x507F1F77 ∧
    (∃ o, ObjectID.ofText b!"this is not an identifier!" = .ok o) ∧ ObjectID.ofText b!"507f1f77bcf86cd7" = .ub :=
  ⟨C125_digits_partial _ _ _ _ _ rfl rfl rfl (by decide), by decide, (C125_false _ (by decide)).1 (by decide), (C125_false _ (by decide)).2 (by decide)⟩

/-! ### C126 -/

/-- The 64 bit number bsonspec makes of a time stamp; MongoDB orders time stamps by it: by time, then by increment. -/
def stampNumber (t : BsonTimeStamp) : Int := t.timestamp * 2 ^ 32 + t.increment

/-- The values of the fields, which are `std::uint32_t`. -/
def StampTyped (t : BsonTimeStamp) : Prop := InRange u32 t.increment ∧ InRange u32 t.timestamp

/-- C126, for time stamps with the same increment or the same time: `operator<` is the order of time. -/
theorem C126_order_partial (a b : BsonTimeStamp) (ha : StampTyped a) (hb : StampTyped b) (h : a.increment = b.increment ∨ a.timestamp = b.timestamp) :
    a.lt b = true ↔ stampNumber a < stampNumber b := by
  obtain ⟨⟨h1, h2⟩, h3, h4⟩ := ha
  obtain ⟨⟨h5, h6⟩, h7, h8⟩ := hb
  simp only [BsonTimeStamp.lt, stampNumber, decide_eq_true_eq]
  simp [u32] at h1 h2 h3 h4 h5 h6 h7 h8
  omega

/-- `operator==` says whether they are the same time stamp, and of two different ones exactly one is less than the other. -/
theorem C126_total (a b : BsonTimeStamp) : (a.eq b = true ↔ a = b) ∧ (a.lt b = true ∧ b.lt a = false ∧ a.eq b = false ∨
    a.lt b = false ∧ b.lt a = true ∧ a.eq b = false ∨ a.lt b = false ∧ b.lt a = false ∧ a.eq b = true) := by
  obtain ⟨i, t⟩ := a
  obtain ⟨j, u⟩ := b
  simp only [BsonTimeStamp.lt, BsonTimeStamp.eq, BsonTimeStamp.mk.injEq, decide_eq_true_eq, decide_eq_false_iff_not]
  refine ⟨trivial, ?_⟩
  omega

/-- C126 is false: a time stamp that is earlier but has the larger increment compares greater, however far the times are apart. -/
theorem C126_false (a b : BsonTimeStamp) (ht : a.timestamp < b.timestamp) (hi : b.increment < a.increment) : a.lt b = false ∧ b.lt a = true := by
  simp only [BsonTimeStamp.lt, decide_eq_true_eq, decide_eq_false_iff_not]
  omega

/-- non-vacuity: 2009 and 2024, the increments 2 and 1. -/
example : (BsonTimeStamp.lt ⟨1, 1234567890⟩ ⟨1, 1714567890⟩ = true ↔ stampNumber ⟨1, 1234567890⟩ < stampNumber ⟨1, 1714567890⟩) ∧
    BsonTimeStamp.lt ⟨2, 1234567890⟩ ⟨1, 1714567890⟩ = false :=
  ⟨C126_order_partial _ _ (by unfold StampTyped InRange; decide) (by unfold StampTyped InRange; decide) (.inl rfl), (C126_false _ _ (by decide) (by decide)).1⟩

end Thors.Props
