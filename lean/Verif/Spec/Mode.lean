import Verif.Spec.Wave
import Verif.Model.Config

/-
Specification: standing waves between walls, and pulses.
-/
namespace Dgtd.Mode.Spec
open Dgtd.Wave.Spec (VField MaxwellAt)
open Dgtd.Config (FieldType Axis)

/-- Index of an axis. -/
def ix : Axis → Fin 3
  | .X => 0
  | .Y => 1
  | .Z => 2

/-- One of the two fields. -/
def pick (ft : FieldType) (E H : VField) : VField := match ft with | .E => E | .H => H

/-- `E` and `H` are a solution of Maxwell's equations everywhere and always. -/
def Solves (E H : VField) : Prop := ∀ x y z t, MaxwellAt E H x y z t

/-- Walls of the rectangle `[0, a] × [0, b]`, on which the field `A` has no tangential component: electric conductors if it is the electric
field, magnetic conductors if it is the magnetic one. -/
def Walls2 (a b : ℝ) (A : VField) : Prop := ∀ s z t,
  (A 0 s z t 1 = 0 ∧ A 0 s z t 2 = 0 ∧ A a s z t 1 = 0 ∧ A a s z t 2 = 0) ∧
  (A s 0 z t 0 = 0 ∧ A s 0 z t 2 = 0 ∧ A s b z t 0 = 0 ∧ A s b z t 2 = 0)

/-- Walls at the ends of the interval `[0, a]`. -/
def Walls1 (a : ℝ) (A : VField) : Prop := ∀ y z t, A 0 y z t 1 = 0 ∧ A 0 y z t 2 = 0 ∧ A a y z t 1 = 0 ∧ A a y z t 2 = 0

/-- The open unit cube. -/
def Inside (x y z : ℝ) : Prop := (0 < x ∧ x < 1) ∧ (0 < y ∧ y < 1) ∧ (0 < z ∧ z < 1)

/-- The fields whose values on a mesh of `dim` dimensions are `init` at time zero solve Maxwell's equations, at least at that time, inside
the unit cube.  (Fields on a mesh of fewer dimensions do not depend on the coordinates left out.) -/
def StartsSolution (dim : Nat) (init : List ℝ → FieldType → Axis → Option ℝ) : Prop :=
  ∃ E H : VField, (∀ x y z, Inside x y z → MaxwellAt E H x y z 0) ∧
    ∀ x y z, Inside x y z → ∀ ft d, init ([x, y, z].take dim) ft d = some (pick ft E H x y z 0 (ix d))

end Dgtd.Mode.Spec
