import Verif.Model.PoleFit

/-
Specification side of the pole fit.
-/
namespace Dgtd.PoleFit.Spec

open Finset

variable {F : Type} [Field F]

/-- `lam` is an eigenvalue of the `n × n` matrix. -/
def IsEigenvalue (n : Nat) (C : Nat → Nat → F) (lam : F) : Prop :=
  ∃ v : Nat → F, (∃ i < n, v i ≠ 0) ∧ ∀ i < n, ∑ j ∈ range n, C i j * v j = lam * v i

/-- Numerator of the fitted function at the scaled frequency `s`; `x` holds its coefficients and then those of the denominator. -/
def num (n : Nat) (x : Nat → F) (s : F) : F := ∑ j ∈ range (n + 1), x j * s ^ j

/-- Denominator, with constant term one. -/
def den (n : Nat) (x : Nat → F) (s : F) : F := 1 + ∑ j ∈ range n, x (n + 1 + j) * s ^ (j + 1)

end Dgtd.PoleFit.Spec
