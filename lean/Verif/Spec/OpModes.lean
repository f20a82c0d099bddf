/-
Specification: modes of the discrete equations, fields that change as `exp (l t)`.
-/
import Verif.Spec.OpReverse
import Mathlib.Analysis.SpecialFunctions.ExpDeriv

namespace Dgtd.Modes.Spec
open Dgtd.Op Dgtd.Op.Spec

variable {ι : Type} [Fintype ι] [DecidableEq ι]

/-- Real part of a complex field. -/
def rePart (v : State ι ℂ) : State ι ℝ := fun f d i => (v f d i).re

/-- Imaginary part. -/
def imPart (v : State ι ℂ) : State ι ℝ := fun f d i => (v f d i).im

/-- The rate of a complex field: the operator is real, so it acts on both parts. -/
noncomputable def speed (P : Prob ι ℝ) (v : State ι ℂ) : State ι ℂ :=
  fun f d i => ((globalMult P (rePart v) f d i : ℝ) : ℂ) + Complex.I * ((globalMult P (imPart v) f d i : ℝ) : ℂ)

/-- A mode that changes as `exp (l t)`: `l.re` is its growth, `l.im` its angular frequency. -/
structure Mode (P : Prob ι ℝ) (l : ℂ) (v : State ι ℂ) : Prop where
  ne : v ≠ 0
  eq : ∀ f d i, speed P v f d i = l * v f d i

/-- The complex conjugate of a field. -/
noncomputable def conjugate (v : State ι ℂ) : State ι ℂ := fun f d i => (starRingEnd ℂ) (v f d i)

/-- The magnetic field turned round. -/
def turned (v : State ι ℂ) : State ι ℂ
  | .E => v .E
  | .H => fun d i => -v .H d i

/-- `∫ ε conj (E) · E' + μ conj (H) · H'`. -/
noncomputable def product (M : FieldT → Matrix ι ι ℝ) (v w : State ι ℂ) : ℂ :=
  ∑ d : Dir, ∑ i, ∑ j, ((starRingEnd ℂ) (v .E d i) * M .E i j * w .E d j + (starRingEnd ℂ) (v .H d i) * M .H i j * w .H d j)

end Dgtd.Modes.Spec
