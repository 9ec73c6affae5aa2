import Verif.Model.Basic
/-
Specification for C99: the modes in the order of how much they accept (ParserConfig.h:22-31).
-/
namespace Thors.Spec
open Thors

/-- The second mode is at least as lax as the first. -/
def Laxer : ParseType → ParseType → Prop
  | .Exact, _ => True
  | .Strict, m => m = .Strict ∨ m = .Weak
  | .Weak, m => m = .Weak

end Thors.Spec
