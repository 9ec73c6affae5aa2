import Verif.Model.StringInput
/-
Specification: the values of the C++ integer types, two's complement.
-/
namespace Thors.Spec
open Thors StrIn

/-- `i` is a value of the integer type: `[-2^(bits-1), 2^(bits-1))` if it is signed, `[0, 2^bits)` if not. -/
def InRange (k : IntKind) (i : Int) : Prop :=
  if k.signed then -(2 ^ (k.bits - 1)) ≤ i ∧ i < 2 ^ (k.bits - 1) else 0 ≤ i ∧ i < 2 ^ k.bits

instance (k : IntKind) (i : Int) : Decidable (InRange k i) := by unfold InRange; infer_instance

/-- The range the model computes is this one. -/
theorem fits_iff {k : IntKind} {i : Int} : k.fits i ↔ InRange k i := by
  unfold IntKind.fits InRange IntKind.lo IntKind.hi
  cases k.signed <;> simp <;> omega

end Thors.Spec
