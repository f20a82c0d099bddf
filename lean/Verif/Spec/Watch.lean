/-
Vocabulary for C186: two simulations that differ in their probes only.
-/
import Verif.Model.Simulate

namespace Dgtd.Watch.Spec
open Dgtd.Simulate

variable {V S R : Type}

/-- Two solvers with the same clock, fields and state of the operator; a probe that both have (the `i`-th of the first is
the `j`-th of the second before) is the same in both, with all its records. -/
structure SameBut (ps ps' : List (Probe V R)) (s s' : Sim V S R) : Prop where
  time   : s'.time = s.time
  fields : s'.fields = s.fields
  cache  : s'.cache = s.cache
  cycle  : s'.cycle = s.cycle
  probes : ∀ i j : Nat, ps[i]? = ps'[j]? → s.probes[i]? = s'.probes[j]?

/-- Two runs end alike. -/
def Alike (ps ps' : List (Probe V R)) : TimeLoop.Outcome (Sim V S R) → TimeLoop.Outcome (Sim V S R) → Prop
  | .done s, .done s' => SameBut ps ps' s s'
  | .outOfFuel, .outOfFuel => True
  | .ub, .ub => True
  | _, _ => False

end Dgtd.Watch.Spec
