/-
Specification of the reversal of time.
-/
import Verif.Spec.Op

namespace Dgtd.Op.Spec

open Dgtd.Op

variable {ι K : Type} [Field K]

/-- The fields of the film played backwards: the electric field as it is, the magnetic field with the other sign. -/
def reversed (u : State ι K) : State ι K
  | .E => fun d i => u .E d i
  | .H => fun d i => -u .H d i

end Dgtd.Op.Spec
