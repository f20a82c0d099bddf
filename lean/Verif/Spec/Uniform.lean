/-
Specification: how smooth a solution of Maxwell's equations is in time.
-/
import Verif.Spec.Cfl

namespace Dgtd.Galerkin.Spec
open Dgtd.Op Dgtd.Galerkin

variable {n : Nat} {ι : Type}

/-- Rate of change of the fields. -/
noncomputable def rate (F : Solution n ι) : Solution n ι := fun a f d => dt (F a f d)

/-- The fields and their first `k + 1` derivatives in time are bounded by `B` in the elements, and so are the derivatives of order `p + 1`
along the coordinates of all of them. -/
def Regular (S : Setup n ι) (T : ℝ) (F : Solution n ι) (p k : Nat) (B : ℝ) : Prop :=
  ∀ i ≤ k, Bounded S T (rate^[i] F) (p + 1) B ∧ Bounded S T (rate^[i] F) 0 B

end Dgtd.Galerkin.Spec
