/-
Specification of the time integrators: what they are meant to compute.
-/
import Verif.Model.TimeInt
import Verif.Spec.Op

namespace Dgtd.TimeInt.Spec

open Dgtd.TimeInt
open Dgtd.Implicit (Sdirk)
open Dgtd.Op (State FieldT)
open Dgtd.Op.Spec (energy)

/-- The exact values of the constants of the three-stage scheme of order three, which the library lists with 24
digits. -/
structure Ideal33 (q : Sdirk ℝ) : Prop where
  root : q.a ^ 3 - 3 * q.a ^ 2 + 3 / 2 * q.a - 1 / 6 = 0
  lo : 0.43586 ≤ q.a
  hi : q.a ≤ 0.43587
  b_eq : q.b = -(6 * q.a ^ 2 - 16 * q.a + 1) / 4
  c_eq : q.c = (1 + q.a) / 2

/-- Orders of accuracy (src/solver/SolverOptions.h:8-18). -/
def order : Ode → Nat
  | .rk4 => 4
  | .backwardEuler => 1
  | .trapezoidal => 2
  | .implicitMidpoint => 2
  | .sdirk33 => 3
  | .sdirk23 => 2
  | .sdirk34 => 4

/-- The numbers by which the integrators are chosen (src/solver/SolverOptions.h:8-18). -/
def number : Ode → Nat
  | .rk4 => 0
  | .backwardEuler => 1
  | .trapezoidal => 2
  | .implicitMidpoint => 3
  | .sdirk33 => 4
  | .sdirk23 => 5
  | .sdirk34 => 6

/-- Size of a field: square root of its energy. -/
noncomputable def size {ι : Type} [Fintype ι] (M : FieldT → Matrix ι ι ℝ) (u : State ι ℝ) : ℝ := Real.sqrt (energy M u)

end Dgtd.TimeInt.Spec
