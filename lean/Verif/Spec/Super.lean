/-
Specification for C137: fields that satisfy the equations of the operator up to a residual.
-/
import Verif.Spec.TimeInt
import Mathlib.Analysis.Calculus.Deriv.Basic

namespace Dgtd.Super.Spec

open Op Op.Spec TimeInt.Spec

variable {ι : Type} [Fintype ι] [DecidableEq ι]

/-- The fields `w` satisfy the semi-discrete equations between `t` and `t'` up to a residual of size `δ`: the fields of the
continuous problem, interpolated on the mesh, with the residual that the mesh and the order of the elements leave. -/
def Consistent (P : Prob ι ℝ) (M : FieldT → Matrix ι ι ℝ) (src w : ℝ → State ι ℝ) (t t' δ : ℝ) : Prop :=
  ∃ res : ℝ → State ι ℝ, ∀ s, t ≤ s → s ≤ t' → size M (res s) ≤ δ ∧
    ∀ f d i, HasDerivAt (fun r => w r f d i) (globalMult P (w s) f d i + src s f d i + res s f d i) s

end Dgtd.Super.Spec
