/-
Vocabulary for C187: what a probe has recorded up to an instant.
-/
import Verif.Model.Simulate

namespace Dgtd.Longer.Spec
open Dgtd.Simulate

variable {V R : Type}

open Classical in
/-- A probe as if it had stopped recording after the time `L`. -/
noncomputable def upTo (L : ℝ) (p : Probe V R) : Probe V R := { p with recs := p.recs.filter fun r => decide (r.2.1 ≤ L) }

/-- Probes whose interval is given in steps. -/
def InSteps (ps : List (Probe V R)) : Prop := ∀ p ∈ ps, p.steps ≠ 0 ∧ p.saves ≤ 0

end Dgtd.Longer.Spec
