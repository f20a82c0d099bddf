/-
The flat vector an integrator works on, and the fields it holds.
-/
import Verif.Model.Op

namespace Dgtd.Implicit
open Op

variable {K : Type} {ι : Type}

/-- Indices of the flat state vector: field, direction, node. -/
abbrev Slot (ι : Type) := FieldT × Dir × ι

/-- The flat vector holding the fields `u`. -/
def flat (u : State ι K) : Slot ι → K := fun s => u s.1 s.2.1 s.2.2

/-- The fields held by a flat vector. -/
def unflat (x : Slot ι → K) : State ι K := fun f d i => x (f, d, i)

end Dgtd.Implicit
