/-
Model of src/components/Spherical.cpp over the reals; `std::atan2(y, x)` is the argument of `x + i y`.
-/
import Mathlib.Analysis.SpecialFunctions.Complex.Arg
import Mathlib.Analysis.SpecialFunctions.Trigonometric.Inverse
import Mathlib.Data.Fin.VecNotation

namespace Dgtd.Spherical

noncomputable section

/-- src/components/Spherical.h:41-43. -/
structure SphVec where
  radius : ℝ
  theta : ℝ
  phi : ℝ

/-- src/components/Spherical.cpp:16-19: square root of the sum of squares, component by component. -/
def radiusOf (p : List ℝ) : ℝ := Real.sqrt (p.foldl (fun s x => s + x ^ 2) 0)

/-- src/components/Spherical.cpp:12-23.  The assertion on the size, and 0/0 at the origin in three dimensions (not a
number), are failures. -/
def ofCartesian : List ℝ → Option SphVec
  | [x, y] => some ⟨radiusOf [x, y], Real.pi / 2, Complex.arg ⟨x, y⟩⟩
  | [x, y, z] =>
    if radiusOf [x, y, z] = 0 then none
    else some ⟨radiusOf [x, y, z], Real.arccos (z / radiusOf [x, y, z]), Complex.arg ⟨x, y⟩⟩
  | _ => none

/-- src/components/Spherical.cpp:33-40. -/
def toCartesian (s : SphVec) : List ℝ :=
  [s.radius * Real.sin s.theta * Real.cos s.phi, s.radius * Real.sin s.theta * Real.sin s.phi, s.radius * Real.cos s.theta]

/-- src/components/Spherical.cpp:42-53. -/
def fieldToCartesian (s : SphVec) (ar at' ap : ℝ) : Fin 3 → ℝ :=
  let cost := Real.cos s.theta
  let sint := Real.sin s.theta
  let cosp := Real.cos s.phi
  let sinp := Real.sin s.phi
  ![cosp * (sint * ar + cost * at') - sinp * ap, sinp * (sint * ar + cost * at') + cosp * ap, cost * ar - sint * at']

end

end Dgtd.Spherical
