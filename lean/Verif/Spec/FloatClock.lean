/-
What binary floating-point numbers with 53 significant bits are, and what rounding to nearest is.
Nothing here refers to the model.  Overflow and underflow are left out: exponents are unbounded.
-/
import Mathlib.Algebra.Order.Field.Power
import Mathlib.Algebra.Order.AbsoluteValue.Basic

namespace Dgtd.FloatClock.Spec

variable {K : Type*} [Field K] [LinearOrder K]

/-- A number with at most 53 significant bits. -/
def Double (x : K) : Prop := ∃ m e : ℤ, |m| ≤ 2 ^ 53 ∧ x = (m : K) * 2 ^ e

/-- Rounding to a nearest double; ties may be broken in any way. -/
structure Nearest (fl : K → K) : Prop where
  double : ∀ x, Double (fl x)
  nearest : ∀ x z, Double z → |x - fl x| ≤ |x - z|

end Dgtd.FloatClock.Spec
