import Verif.Model.MongoDate
import Verif.Proofs.Mongo
/-
C130. A date written to a stream and read back.
-/
namespace Thors.Props
open Thors StrIn

/-- What reading does understand: the number of milliseconds in hexadecimal digits. Partial: nothing writes a date like that, see `C130_false`. -/
theorem C130_hex_partial (n : Nat) (hn : n < 2 ^ 63) : UTCDateTime.get (hexText n) = ((n : Int), true) := by
  obtain ⟨w, hw, hlt, e⟩ := hexText_fixed 15 n (Nat.lt_trans hn (by decide))
  have hp : 0 < 16 ^ w := Nat.pow_pos (by decide)
  have hd : n / 16 ^ w < 16 := by rw [Nat.div_lt_iff_lt_mul hp, Nat.mul_comm, ← Nat.pow_succ]; exact hlt
  have hall := hexFixed_digits (w + 1) n hlt
  have hnext : ∀ x ∈ (hexFixed w (n % 16 ^ w)).head?, x ≠ 0x78 ∧ x ≠ 0x58 := by
    intro x hx'
    cases hh : hexFixed w (n % 16 ^ w) with
    | nil => rw [hh] at hx'; simp at hx'
    | cons y ys =>
      rw [hh] at hx'
      simp at hx'
      obtain ⟨d, hd, e⟩ := hexFixed_digits w _ (Nat.mod_lt _ hp) y (by rw [hh]; simp)
      rw [← hx', e]
      exact (hexDigit_facts d hd).2.2.2.2.2.2
  have hall' : ∀ x ∈ hexFixed (w + 1) n, isHexDigit x = true := by
    intro x hx
    obtain ⟨d, hd, rfl⟩ := hall x hx
    exact (hexDigit_facts d hd).2.2.2.1
  have htake : (hexFixed (w + 1) n).takeWhile isHexDigit = hexFixed (w + 1) n := by
    have := List.takeWhile_append_of_pos (l₂ := []) hall'
    simpa using this
  have hf := hexFixed_foldl (w + 1) n 0 hlt
  have e' : hexFixed (w + 1) n = hexDigit (n / 16 ^ w) :: hexFixed w (n % 16 ^ w) := rfl
  have f := hexDigit_facts _ hd
  rw [e'] at htake hf
  rw [e, e']
  have hs : ((hexDigit (n / 16 ^ w) :: hexFixed w (n % 16 ^ w)).dropWhile isSpace) = hexDigit (n / 16 ^ w) :: hexFixed w (n % 16 ^ w) :=
    List.dropWhile_cons_of_neg (by simp [f.1])
  have h1 : (hexDigit (n / 16 ^ w) :: hexFixed w (n % 16 ^ w))[1]? = (hexFixed w (n % 16 ^ w)).head? := by
    cases hexFixed w (n % 16 ^ w) <;> rfl
  have hz : ¬ ((hexDigit (n / 16 ^ w) :: hexFixed w (n % 16 ^ w)).head? = some 0x30 ∧ ((hexDigit (n / 16 ^ w) :: hexFixed w (n % 16 ^ w))[1]? = some 0x78 ∨
      (hexDigit (n / 16 ^ w) :: hexFixed w (n % 16 ^ w))[1]? = some 0x58)) := by
    rw [h1]
    rintro ⟨-, h | h⟩
    · exact (hnext _ h).1 rfl
    · exact (hnext _ h).2 rfl
  have hn1 : ¬ ((hexDigit (n / 16 ^ w) :: hexFixed w (n % 16 ^ w)).head? = some 0x2D ∨ (hexDigit (n / 16 ^ w) :: hexFixed w (n % 16 ^ w)).head? = some 0x2B) := by
    simp [f.2.1, f.2.2.2.2.2.1]
  have hn2 : ¬ ((hexDigit (n / 16 ^ w) :: hexFixed w (n % 16 ^ w)).head? = some 0x2D) := fun h => hn1 (.inl h)
  unfold UTCDateTime.get UTCDateTime.extractHex64
  simp only [hs, if_neg hn1, if_neg hz, htake, if_neg hn2, hf]
  rw [if_neg (by simp), if_pos (by simp; omega)]
  simp

/-- A date of 2024 in milliseconds: 0x18d09755ab0. -/
example : UTCDateTime.get b!"18d09755ab0" = (1705260702384, true) := by decide +kernel

/-- The hexadecimal digits, small and capital. -/
def digit130 : Fin 16 × Bool → Byte
  | (d, false) => (b!"0123456789abcdef").getD d 0
  | (d, true) => (b!"0123456789ABCDEF").getD d 0

/-- The number that digits stand for. -/
def value130 (ds : List (Fin 16 × Bool)) : Int := ds.foldl (fun a d => a * 16 + (d.1.val : Int)) 0

private theorem digit130_facts : ∀ d b, isSpace (digit130 (d, b)) = false ∧ digit130 (d, b) ≠ 0x2D ∧ digit130 (d, b) ≠ 0x2B ∧ digit130 (d, b) ≠ 0x78 ∧
    digit130 (d, b) ≠ 0x58 ∧ isHexDigit (digit130 (d, b)) = true ∧ oidDigit (digit130 (d, b)) = (d.val : Int) := by decide

private theorem foldl130 : ∀ (ds : List (Fin 16 × Bool)) (a : Int),
    (ds.map digit130).foldl (fun a d => a * 16 + oidDigit d) a = ds.foldl (fun a d => a * 16 + (d.1.val : Int)) a
  | [], _ => rfl
  | (d, b) :: ds, a => by
    simp only [List.map_cons, List.foldl_cons, (digit130_facts d b).2.2.2.2.2.2]
    exact foldl130 ds _

/-- What reading understands, in full: white space, a sign or none, `0x`, `0X` or nothing, hexadecimal digits, and anything that does not go on like a hexadecimal
number. If the number is not one of the 2^64 dates, the nearest one is stored and the stream fails. -/
theorem C130_reads_partial (ws sign pre rest : Bytes) (ds : List (Fin 16 × Bool)) (hw : ∀ c ∈ ws, isSpace c = true) (hs : sign = [] ∨ sign = b!"+" ∨ sign = b!"-")
    (hp : pre = [] ∨ pre = b!"0x" ∨ pre = b!"0X") (hd : ds ≠ []) (hr : ∀ c ∈ rest.head?, isHexDigit c = false ∧ c ≠ 0x78 ∧ c ≠ 0x58)
    (v : Int) (hv : v = if sign = b!"-" then -value130 ds else value130 ds) :
    UTCDateTime.get (ws ++ sign ++ pre ++ ds.map digit130 ++ rest) =
      if v < -2 ^ 63 then (-2 ^ 63, false) else if 2 ^ 63 ≤ v then (2 ^ 63 - 1, false) else (v, true) := by
  obtain ⟨⟨d, b⟩, ds', rfl⟩ := List.exists_cons_of_ne_nil hd
  have f := digit130_facts d b
  -- the digits
  have htake : (((d, b) :: ds').map digit130 ++ rest).takeWhile isHexDigit = ((d, b) :: ds').map digit130 := by
    rw [List.takeWhile_append_of_pos (by
      intro c hc
      obtain ⟨⟨x, y⟩, -, rfl⟩ := List.mem_map.1 hc
      exact (digit130_facts x y).2.2.2.2.2.1)]
    cases rest with
    | nil => simp
    | cons c cs => rw [List.takeWhile_cons_of_neg (by simp [(hr c rfl).1])]; simp
  -- behind the first digit there is no `x`
  have hnox : ∀ c, (((d, b) :: ds').map digit130 ++ rest)[1]? = some c → c ≠ 0x78 ∧ c ≠ 0x58 := by
    intro c hc
    cases ds' with
    | nil => exact (hr c (by cases rest <;> simp_all)).2
    | cons e es =>
      obtain ⟨x, y⟩ := e
      simp at hc
      subst hc
      exact ⟨(digit130_facts x y).2.2.2.1, (digit130_facts x y).2.2.2.2.1⟩
  -- behind the sign
  have hpre : ∀ s : Bytes, s = pre ++ ((d, b) :: ds').map digit130 ++ rest →
      (if s.head? = some 0x30 ∧ (s[1]? = some 0x78 ∨ s[1]? = some 0x58) then s.drop 2 else s) = ((d, b) :: ds').map digit130 ++ rest := by
    rintro s rfl
    rcases hp with rfl | rfl | rfl
    · rw [if_neg]
      · rfl
      · rintro ⟨-, h | h⟩
        · exact (hnox _ h).1 rfl
        · exact (hnox _ h).2 rfl
    · rfl
    · rfl
  have hhead : ∀ c ∈ (pre ++ ((d, b) :: ds').map digit130 ++ rest).head?, isSpace c = false ∧ c ≠ 0x2D ∧ c ≠ 0x2B := by
    intro c hc
    rcases hp with rfl | rfl | rfl
    · simp at hc
      subst hc
      exact ⟨f.1, f.2.1, f.2.2.1⟩
    · simp at hc; subst hc; decide
    · simp at hc; subst hc; decide
  have hdrop : (ws ++ sign ++ pre ++ ((d, b) :: ds').map digit130 ++ rest).dropWhile isSpace = sign ++ (pre ++ ((d, b) :: ds').map digit130 ++ rest) := by
    rw [List.append_assoc, List.append_assoc, List.append_assoc, List.dropWhile_append_of_pos hw, ← List.append_assoc pre]
    rcases hs with rfl | rfl | rfl
    · cases hx : pre ++ ((d, b) :: ds').map digit130 ++ rest with
      | nil => rfl
      | cons c cs => rw [List.nil_append, List.dropWhile_cons_of_neg]; rw [hx] at hhead; simp [(hhead c rfl).1]
    · rfl
    · rfl
  have hne : ((d, b) :: ds').map digit130 ≠ [] := by simp
  have hval : (((d, b) :: ds').map digit130).foldl (fun a d => a * 16 + oidDigit d) 0 = value130 ((d, b) :: ds') := foldl130 _ 0
  have hpos : ∀ (l : List (Fin 16 × Bool)) (a : Int), 0 ≤ a → 0 ≤ l.foldl (fun a d => a * 16 + (d.1.val : Int)) a := by
    intro l
    induction l with
    | nil => intro a h; exact h
    | cons x xs ih => intro a h; exact ih _ (by dsimp only; omega)
  have h0 : 0 ≤ value130 ((d, b) :: ds') := hpos _ 0 (by decide)
  unfold UTCDateTime.get UTCDateTime.extractHex64
  simp only [hdrop]
  generalize hY : pre ++ ((d, b) :: ds').map digit130 ++ rest = Y at hhead hpre
  rcases hs with rfl | rfl | rfl
  · have n1 : ¬ (Y.head? = some 0x2D) := fun h => (hhead _ h).2.1 rfl
    have n2 : ¬ (Y.head? = some 0x2D ∨ Y.head? = some 0x2B) := by
      rintro (h | h)
      · exact (hhead _ h).2.1 rfl
      · exact (hhead _ h).2.2 rfl
    simp only [List.nil_append, if_neg n1, if_neg n2, hpre Y rfl, htake, if_neg hne, hval]
    rw [if_neg (by decide)] at hv
    subst hv
    split <;> split <;> first | rfl | omega | (split <;> first | rfl | omega)
  · have e : (b!"+" ++ Y).drop 1 = Y := rfl
    simp only [if_pos (show (b!"+" ++ Y).head? = some 0x2D ∨ (b!"+" ++ Y).head? = some 0x2B from .inr rfl), e,
      if_neg (show ¬ ((b!"+" ++ Y).head? = some 0x2D) from fun h => absurd (Option.some.inj h) (by decide)), hpre Y rfl, htake, if_neg hne, hval]
    rw [if_neg (by decide)] at hv
    subst hv
    split <;> split <;> first | rfl | omega | (split <;> first | rfl | omega)
  · have e : (b!"-" ++ Y).drop 1 = Y := rfl
    simp only [if_pos (show (b!"-" ++ Y).head? = some 0x2D ∨ (b!"-" ++ Y).head? = some 0x2B from .inl rfl), e,
      if_pos (show ((b!"-" ++ Y).head? = some 0x2D) from rfl), hpre Y rfl, htake, if_neg hne, hval]
    rw [if_pos rfl] at hv
    subst hv
    split <;> split <;> first | rfl | omega | (split <;> first | rfl | omega)

/-- ` -0xFf,`. -/
example : UTCDateTime.get (b!" " ++ b!"-" ++ b!"0x" ++ [(15, true), (15, false)].map digit130 ++ b!",") = (-255, true) := by
  rw [C130_reads_partial b!" " b!"-" b!"0x" b!"," [(15, true), (15, false)] (by decide) (.inr (.inr rfl)) (.inr (.inl rfl)) (by simp) (by decide) (-255) (by decide)]
  decide

/-- C130 is false, for all dates but two at most, in all time zones: what is written begins with the name of a day, which is no number.
Reading it back gives 15 on Fridays (the `F`) and an error and 0 on all other days. So no date except 0 and 15 comes back. -/
theorem C130_false (zone : UTCDateTime.Zone) (d : Int) (t : Bytes) (h : UTCDateTime.put zone d = .ok t) :
    (UTCDateTime.get t = (15, true) ∨ UTCDateTime.get t = (0, false)) ∧ (d ≠ 0 → d ≠ 15 → (UTCDateTime.get t).1 ≠ d) := by
  have key : UTCDateTime.get t = (15, true) ∨ UTCDateTime.get t = (0, false) := by
    unfold UTCDateTime.put at h
    cases hz : zone (d.tdiv 1000) with
    | none => rw [hz] at h; cases h
    | some p =>
      obtain ⟨w, rest⟩ := p
      rw [hz] at h
      cases h
      match w with
      | 0 => exact .inr rfl
      | 1 => exact .inr rfl
      | 2 => exact .inr rfl
      | 3 => exact .inr rfl
      | 4 => exact .inr rfl
      | 5 => exact .inl rfl
      | 6 => exact .inr rfl
  refine ⟨key, fun h0 h15 hd => ?_⟩
  rcases key with k | k <;> rw [k] at hd
  · exact h15 hd.symm
  · exact h0 hd.symm

/-- Friday 2024-01-12 in Greenwich. -/
example : ∃ t, UTCDateTime.put (fun s => if s = 1705017600 then some (5, b!"Jan 12 00:00:00 2024 GMT") else none) 1705017600000 = .ok t ∧
    t = b!"Fri Jan 12 00:00:00 2024 GMT" ∧ UTCDateTime.get t = (15, true) := ⟨_, rfl, by decide, rfl⟩

/-- C130, on the way: dates of the same second are written as the same text, in every zone. So no reader could tell them apart. -/
theorem C130_seconds_false (zone : UTCDateTime.Zone) (s : Int) (hs : 0 ≤ s) (a b : Int) (ha : 0 ≤ a ∧ a < 1000) (hb : 0 ≤ b ∧ b < 1000) :
    UTCDateTime.put zone (s * 1000 + a) = UTCDateTime.put zone (s * 1000 + b) := by
  have key : ∀ x : Int, 0 ≤ x ∧ x < 1000 → (s * 1000 + x).tdiv 1000 = s := by
    intro x hx
    rw [Int.tdiv_eq_ediv_of_nonneg (by omega)]
    omega
  unfold UTCDateTime.put
  rw [key a ha, key b hb]

end Thors.Props
