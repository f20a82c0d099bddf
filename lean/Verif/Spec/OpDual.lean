/-
Specification of the duality of electric and magnetic fields.
-/
import Verif.Spec.Op

namespace Dgtd.Op.Spec

open Dgtd.Op

variable {ι K : Type} [Field K]

/-- A magnetic wall for an electric one and an electric one for a magnetic one. -/
def dualCond : BdrCond → BdrCond
  | .PEC => .PMC
  | .PMC => .PEC
  | .SMA => .SMA
  | .SGBC => .SGBC

/-- The same mesh with permittivity and permeability exchanged and the walls of the other kind. -/
def dualProb (P : Prob ι K) : Prob ι K :=
  { P with
    interior := P.interior.map fun q => (q.1.map dualCond, q.2)
    bdr := P.bdr.map fun q => (q.1.map dualCond, q.2)
    Minv := fun f => P.Minv (altField f) }

/-- The magnetic field as the electric one and the electric field, with the other sign, as the magnetic one. -/
def dual (u : State ι K) : State ι K
  | .E => fun d i => u .H d i
  | .H => fun d i => -u .E d i

end Dgtd.Op.Spec
