/-
Model of the local frame of a thin-layer face: src/solver/SolverExtension.h and the rotations of
src/solver/SolverExtension.cpp, src/evolution/GlobalEvolution.cpp.

`double` is `ℝ`.  Normalising a zero vector (0/0, not a number in the code) is modelled as failure.
-/
import Mathlib.Analysis.SpecialFunctions.Sqrt
import Mathlib.Data.Fin.VecNotation

namespace Dgtd.FaceRotation

noncomputable section

/-- src/solver/SolverExtension.h:79-81: the entries of `normal`, zero where it is shorter than three;
reading entry 0 of an empty vector is undefined behaviour. -/
def readNormal : List ℝ → Option (ℝ × ℝ × ℝ)
  | [] => none
  | [x] => some (x, 0, 0)
  | [x, y] => some (x, y, 0)
  | x :: y :: z :: _ => some (x, y, z)

/-- src/solver/SolverExtension.h:82-83 and 99-100: division by the Euclidean length. -/
def normalise (x y z : ℝ) : Option (ℝ × ℝ × ℝ) :=
  let len := Real.sqrt (x * x + y * y + z * z)
  if len = 0 then none else some (x / len, y / len, z / len)

/-- src/solver/SolverExtension.h:71-107 `buildFaceRotationMatrix`; the result is the row-major 3x3 matrix. -/
def build (normal : List ℝ) (dim : Int) : Option (Fin 9 → ℝ) :=
  if dim ≤ 1 then
    some ![1, 0, 0, 0, 1, 0, 0, 0, 1]
  else do
    let (x, y, z) ← readNormal normal
    let (nx, ny, nz) ← normalise x y z
    if dim = 2 then
      some ![nx, ny, 0, -ny, nx, 0, 0, 0, 1]
    else
      let (rx, ry, rz) : ℝ × ℝ × ℝ := if |nx| < 0.9 then (1, 0, 0) else (0, 1, 0)
      let (tx, ty, tz) ← normalise (ny * rz - nz * ry) (nz * rx - nx * rz) (nx * ry - ny * rx)
      some ![nx, ny, nz, tx, ty, tz, ny * tz - nz * ty, nz * tx - nx * tz, nx * ty - ny * tx]

end

variable {K : Type} [Add K] [Mul K]

/-- src/evolution/GlobalEvolution.cpp:391-394, src/solver/SolverExtension.cpp:218-221, 235-238, 266-269,
283-286: global to local, `R[3*i]*g[0] + R[3*i+1]*g[1] + R[3*i+2]*g[2]`. -/
def toLocal (R : Fin 9 → K) (g : Fin 3 → K) : Fin 3 → K := fun i =>
  R ⟨3 * i.val, by omega⟩ * g 0 + R ⟨3 * i.val + 1, by omega⟩ * g 1 + R ⟨3 * i.val + 2, by omega⟩ * g 2

/-- src/solver/SolverExtension.cpp:356-359, 390-393, src/evolution/GlobalEvolution.cpp:868-871: local to global,
`R[d]*l[0] + R[3+d]*l[1] + R[6+d]*l[2]`. -/
def toGlobal (R : Fin 9 → K) (l : Fin 3 → K) : Fin 3 → K := fun d =>
  R ⟨d.val, by omega⟩ * l 0 + R ⟨3 + d.val, by omega⟩ * l 1 + R ⟨6 + d.val, by omega⟩ * l 2

end Dgtd.FaceRotation
