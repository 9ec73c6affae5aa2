import Verif.Model.Types
/-
What the standard says about sets: the order of the elements, and which elements there are.
-/
namespace Thors.Spec
open Thors

/-- A comparison a sorted container may use ([alg.sorting]: a strict weak ordering). -/
structure StrictWeak (lt : Val → Val → Bool) : Prop where
  irrefl : ∀ a, lt a a = false
  trans : ∀ a b c, lt a b = true → lt b c = true → lt a c = true
  incomparable : ∀ a b c, lt a b = false → lt b c = false → lt a c = false

/-- Equivalence under a comparison: neither is smaller. -/
def equivalent (lt : Val → Val → Bool) (a b : Val) : Bool := !lt a b && !lt b a

/-- An equality a hashed container may use. -/
structure Equality (eq : Val → Val → Bool) : Prop where
  refl : ∀ a, eq a a = true
  symm : ∀ a b, eq a b = true → eq b a = true
  trans : ∀ a b c, eq a b = true → eq b c = true → eq a c = true

/-- `x` stands in the list, and nothing like it before. -/
def FirstOf (like : Val → Val → Bool) (x : Val) (l : List Val) : Prop :=
  ∃ pre post, l = pre ++ x :: post ∧ ∀ y ∈ pre, like y x = false

end Thors.Spec
