/-
Specification: the energy account of a run.
-/
import Verif.Spec.OpPower
import Verif.Spec.OpFrame
import Verif.Spec.TimeInt
import Verif.Spec.Slot

namespace Dgtd.Account.Spec

open Dgtd.Op Dgtd.Op.Spec Dgtd.TimeInt Dgtd.TimeInt.Spec Dgtd.Implicit

variable {ι : Type} [Fintype ι] [DecidableEq ι]

/-- The fields at which a step from `x` to `y` is accounted: the new ones for the backward Euler rule, the mean of both for the midpoint
and the trapezoidal rules. -/
noncomputable def stage : Ode → State ι ℝ → State ι ℝ → State ι ℝ
  | .backwardEuler, _, y => y
  | _, x, y => fun f d i => (x f d i + y f d i) / 2

/-- The sources of a step that starts at `t`. -/
noncomputable def drive (j : ℝ → State ι ℝ) (t dt : ℝ) : Ode → State ι ℝ
  | .backwardEuler => j (t + dt)
  | .trapezoidal => fun f d i => (j t f d i + j (t + dt) f d i) / 2
  | _ => j (t + dt / 2)

/-- Energy that a step from `x` to `y` loses by itself: that of the change for the backward Euler rule. -/
noncomputable def lost (M : FieldT → Matrix ι ι ℝ) : Ode → State ι ℝ → State ι ℝ → ℝ
  | .backwardEuler, x, y => energy M (y - x)
  | _, _, _ => 0

/-- Power turned into heat in conductors. -/
def heat (P : Prob ι ℝ) (u : State ι ℝ) : ℝ := ∑ d : Dir, u .E d ⬝ᵥ P.Msig.mulVec (u .E d)

/-- `x k` are the fields after `k` steps. -/
def Recorded {S : Type} (q : Sdirk ℝ) (o : Ode) (F : Tdo (Slot ι → ℝ) S) (s : S) (dts : List ℝ) (u : State ι ℝ) (t : ℝ)
    (x : Nat → State ι ℝ) : Prop :=
  ∀ k ≤ dts.length, ∃ c, run q o F (dts.take k) (flat u) t s = some (flat (x k), t + (dts.take k).sum, c)

end Dgtd.Account.Spec
