/-
Vocabulary for C190: a simulation with the machinery of thin layers against one without it.
-/
import Verif.Model.SimLayer

namespace Dgtd.NoLayers.Spec
open Dgtd.Simulate Dgtd.SgbcEvol

variable {σ R : Type}

/-- The rate of change `A x` of the fields, as an operator without any state. -/
noncomputable def plain (A : Rows ℝ) : TimeInt.Tdo (Nat → ℝ) Unit where
  mult := fun _ x r => ((A r).map fun e => e.2 * x e.1).sum
  implicitSolve := fun _ _ _ _ => none

/-- The same time, fields and probes. -/
structure SameView (s : Sim (Nat → ℝ) (Ev σ ℝ) R) (s' : Sim (Nat → ℝ) Unit R) : Prop where
  time   : s'.time = s.time
  fields : s'.fields = s.fields
  cycle  : s'.cycle = s.cycle
  probes : s'.probes = s.probes

/-- Two runs end alike. -/
def Alike : TimeLoop.Outcome (Sim (Nat → ℝ) (Ev σ ℝ) R) → TimeLoop.Outcome (Sim (Nat → ℝ) Unit R) → Prop
  | .done s, .done s' => SameView s s'
  | .outOfFuel, .outOfFuel => True
  | .ub, .ub => True
  | _, _ => False

end Dgtd.NoLayers.Spec
