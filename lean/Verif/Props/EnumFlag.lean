import Verif.Proofs.EnumFlag
/-
C116: enums of flags (ThorsAnvil_MakeEnumFlag).
-/
namespace Thors.Props
open Thors Thors.Spec

/-- C116. What is written for a value all of whose flags have names: the names of the flags that are set, and no others, in the order of the bits with bars between
them; `empty` if none is. -/
theorem C116_print_partial (E : FlagEnum) (hE : FlagEnum.Proper E) (v : Nat) (hv : v < 2 ^ 32) (hn : FlagEnum.Named E v) :
    (v = 0 → E.print v = .ok b!"empty") ∧ (v ≠ 0 → ∃ ns, FlagNames E v 0 ns ∧ E.print v = .ok (barred ns)) :=
  ⟨fun h => by rw [FlagEnum.print, if_pos (by rw [hE.empty]; exact h)], fun h => FlagEnum.print_eq hE h hv hn⟩

/-- C116. The names written are those of the flags that are set. -/
theorem C116_names (E : FlagEnum) (hE : FlagEnum.Proper E) (v : Nat) (ns : List Bytes) (h : FlagNames E v 0 ns) (i : Nat) :
    v.testBit i = true ↔ ∃ n ∈ ns, Flag E i n := flagNames_bit hE h i (Nat.zero_le i)

/-- C116. Different values are written differently. -/
theorem C116_distinct_partial (E : FlagEnum) (hE : FlagEnum.Proper E) (v w : Nat) (hv : v < 2 ^ 32) (hw : w < 2 ^ 32) (hn : FlagEnum.Named E v) (hm : FlagEnum.Named E w)
    (h : E.print v = E.print w) : v = w := FlagEnum.print_inj hE hv hw hn hm h

/-- C116. `&`, `|` and `^` keep, join and tell apart flags, and stay inside the type. -/
theorem C116_operators (a b : Nat) (ha : a < 2 ^ 32) (hb : b < 2 ^ 32) :
    (FlagEnum.and a b < 2 ^ 32 ∧ FlagEnum.or a b < 2 ^ 32 ∧ FlagEnum.xor a b < 2 ^ 32) ∧ ∀ i,
      ((FlagEnum.and a b).testBit i = true ↔ a.testBit i = true ∧ b.testBit i = true) ∧
      ((FlagEnum.or a b).testBit i = true ↔ a.testBit i = true ∨ b.testBit i = true) ∧
      ((FlagEnum.xor a b).testBit i = true ↔ a.testBit i ≠ b.testBit i) := by
  refine ⟨⟨Nat.and_lt_two_pow a hb, Nat.or_lt_two_pow ha hb, Nat.xor_lt_two_pow ha hb⟩, fun i => ⟨?_, ?_, ?_⟩⟩
  · simp [FlagEnum.and, Nat.testBit_and]
  · simp [FlagEnum.or, Nat.testBit_or]
  · simp [FlagEnum.xor, Nat.testBit_xor]

/-- Three flags. -/
def colours : FlagEnum := ⟨[(0, b!"empty"), (1, b!"Red"), (2, b!"Green"), (0x80000000, b!"Blue")], 0⟩

theorem colours_proper : FlagEnum.Proper colours := ⟨rfl, by decide, by decide⟩

theorem named_of {v : Nat} (hv : v < 2 ^ 32) (h : ∀ i < 32, v.testBit i = true → colours.values.any (fun e => e.1 == 2 ^ i) = true) : FlagEnum.Named colours v := by
  intro i hi
  by_cases hl : i < 32
  · obtain ⟨e, he, h2⟩ := List.any_eq_true.1 (h i hl hi)
    simp only [beq_iff_eq] at h2
    exact ⟨e.2, by unfold Flag; rw [← h2]; exact he⟩
  · rw [flag_bit hv (by omega)] at hi; cases hi

/-- Non-vacuity. -/
example : colours.print 0x80000001 = .ok b!"Red | Blue" := rfl

example : ∀ w < 2 ^ 32, FlagEnum.Named colours w → colours.print w = .ok b!"Red | Blue" → w = 0x80000001 := fun w hw hn h =>
  C116_distinct_partial colours colours_proper w 0x80000001 hw (by decide) hn (named_of (by decide) (by decide)) h

/-- C116 as wanted, for all values of the type, is false: writing a value with a flag that has no name, which `^` or a cast can make, looks at the end of the
table of names (`values.find(flag)->second`), which is undefined behaviour. -/
theorem C116_false : ∃ v < 2 ^ 32, FlagEnum.Proper colours ∧ colours.print v = .ub := ⟨5, by decide, colours_proper, rfl⟩

end Thors.Props
