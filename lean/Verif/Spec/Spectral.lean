/-
Specification side of the spectral tools.
-/
import Verif.Model.Op
import Mathlib.Analysis.Complex.Norm

namespace Dgtd.Spectral.Spec

/-- `m` is the largest modulus of the list. -/
def IsLargest (m : ℝ) (evs : List ℂ) : Prop := (∀ z ∈ evs, ‖z‖ ≤ m) ∧ ∃ z ∈ evs, ‖z‖ = m

/-- One step of the classical Runge-Kutta method for `u' = A u`. -/
noncomputable def rk4 (A : (Fin 2 → ℝ) → Fin 2 → ℝ) (dt : ℝ) (u : Fin 2 → ℝ) : Fin 2 → ℝ :=
  let k1 := A u
  let k2 := A (u + (dt / 2) • k1)
  let k3 := A (u + (dt / 2) • k2)
  let k4 := A (u + dt • k3)
  u + (dt / 6) • (k1 + (2 : ℝ) • k2 + (2 : ℝ) • k3 + k4)

/-- A vector of two numbers as the list of the code, and back. -/
def ofList (l : List ℝ) : Fin 2 → ℝ := fun i => l.getD i.val 0

def toList (v : Fin 2 → ℝ) : List ℝ := [v 0, v 1]

end Dgtd.Spectral.Spec
