/-
Specification of reciprocity.
-/
import Verif.Spec.Op

namespace Dgtd.Op.Spec

open Dgtd.Op

variable {ι K : Type} [Fintype ι] [DecidableEq ι] [Field K] [LinearOrder K]

/-- What a receiver of the shape `r` reads in the fields `y`: `∫ ε r_E · E - ∫ μ r_H · H`. -/
def reading (M : FieldT → Matrix ι ι K) (r y : State ι K) : K :=
  ∑ d : Dir, (r .E d ⬝ᵥ (M .E).mulVec (y .E d) - r .H d ⬝ᵥ (M .H).mulVec (y .H d))

end Dgtd.Op.Spec
