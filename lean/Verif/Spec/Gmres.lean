/-
Specification of the iterative implicit solve.
-/
import Verif.Model.Gmres
import Verif.Spec.TimeInt
import Verif.Spec.Slot

namespace Dgtd.Gmres.Spec

open Dgtd.TimeInt Dgtd.TimeInt.Spec
open Dgtd.Op Dgtd.Implicit

/-- What is missing for the rate `k` to be the rate of the fields at the end of an implicit stage of size `g` from `x`. -/
def missing {V : Type} [AddCommGroup V] [Module ℝ V] (f : V → V) (g : ℝ) (x k : V) : V := f (x + g • k) - k

/-- The same operator, keeping account of the largest failure (measured by `size`) of the rates its implicit solves have
returned. -/
noncomputable def watch {V S : Type} [AddCommGroup V] [Module ℝ V] (size : V → ℝ) (F : Tdo V S) : Tdo V (S × ℝ) where
  mult := F.mult
  implicitSolve := fun t g x s =>
    (F.implicitSolve t g x s.1).map fun r => (r.1, r.2, max s.2 (size (missing (F.mult t) g x r.1)))

end Dgtd.Gmres.Spec
