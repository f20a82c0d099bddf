/-
Vocabulary for C189: two solvers with thin layers that hold the same fields.
-/
import Verif.Model.SimLayer
import Verif.Spec.SgbcEvol

namespace Dgtd.Memory.Spec
open Dgtd.Simulate Dgtd.SgbcEvol Dgtd.SgbcEvol.Spec

variable {σ R : Type}

/-- The same time, the same fields outside and inside the layers, and the same probes with all their records.  Nothing is said about what else
the evolution objects hold: checkpoints, ghost values, wrappers and their factorisations, scratch memory. -/
structure SameFields (s s' : Sim (Nat → ℝ) (Ev σ ℝ) R) : Prop where
  time   : s'.time = s.time
  fields : s'.fields = s.fields
  cycle  : s'.cycle = s.cycle
  probes : s'.probes = s.probes
  layers : s'.cache.states.map core = s.cache.states.map core

/-- Two runs end alike. -/
def Alike : TimeLoop.Outcome (Sim (Nat → ℝ) (Ev σ ℝ) R) → TimeLoop.Outcome (Sim (Nat → ℝ) (Ev σ ℝ) R) → Prop
  | .done s, .done s' => SameFields s s'
  | .outOfFuel, .outOfFuel => True
  | .ub, .ub => True
  | _, _ => False

end Dgtd.Memory.Spec
