/-
Model of the implicit solve with its cached dense factorisation
(src/evolution/GlobalEvolution.cpp:1090-1233, src/evolution/GlobalEvolution.h:105-110) and of the implicit time
integrator of the thin-layer solver.

`mfem::DenseMatrixInverse` is modelled by the matrix it was built from; its `Mult` multiplies by the inverse and
fails for a singular matrix.  The iterative (GMRES) branch for large or parallel systems is in Model/Gmres.
-/
import Mathlib.LinearAlgebra.Matrix.NonsingularInverse
import Mathlib.Data.Matrix.Mul

namespace Dgtd.Implicit

open Matrix

variable {K : Type} [Field K] [DecidableEq K] {ι : Type} [Fintype ι] [DecidableEq ι]

/-- src/evolution/GlobalEvolution.h:106-110: `A_dense_`, `J_inv_` (null at first), `cached_dt_`,
`dense_A_formed_`. -/
structure Cache (K ι : Type) where
  aDense : Matrix ι ι K
  jInv : Option (Matrix ι ι K)
  cachedDt : K
  formed : Bool

/-- The members after construction: no factorisation, `cached_dt_ = -1`. (src/evolution/GlobalEvolution.h:105-110) -/
def fresh : Cache K ι := ⟨0, none, -1, false⟩

/-- src/evolution/GlobalEvolution.cpp:1152-1157. -/
def formDense (A : Matrix ι ι K) (c : Cache K ι) : Cache K ι :=
  if c.formed then c else { c with aDense := A, formed := true, cachedDt := -1 }

/-- src/evolution/GlobalEvolution.cpp:1160-1169. -/
def refactor (dt : K) (c : Cache K ι) : Cache K ι :=
  if dt ≠ c.cachedDt then { c with jInv := some ((-dt) • c.aDense + 1), cachedDt := dt } else c

/-- src/evolution/GlobalEvolution.cpp:1090-1175 `ImplicitSolve`, the branch for small serial systems.  `A` is
`globalOperator_`, `src` what the total-field source adds to the right-hand side (lines 1139-1144).  `none`: null
`J_inv_` or singular matrix. -/
noncomputable def implicitSolve (A : Matrix ι ι K) (src : ι → K) (c : Cache K ι) (dt : K) (x : ι → K) :
    Option ((ι → K) × Cache K ι) := by
  classical
  exact
    let rhs := A *ᵥ x + src
    let c := refactor dt (formDense A c)
    match c.jInv with
    | none => none
    | some J => if IsUnit J.det then some (J⁻¹ *ᵥ rhs, c) else none

/-- A history of implicit solves on one operator: step, argument and source of each. (src/evolution/GlobalEvolution.cpp:1090-1233) -/
noncomputable def solveAll (A : Matrix ι ι K) : Cache K ι → List (K × (ι → K) × (ι → K)) → Option (List (ι → K) × Cache K ι)
  | c, [] => some ([], c)
  | c, (dt, x, src) :: r => do
    let (k, c) ← implicitSolve A src c dt x
    let (ks, c) ← solveAll A c r
    some (k :: ks, c)

/-- Coefficients of the three-stage singly diagonally implicit scheme `mfem::SDIRK33Solver` (external; selected in
src/solver/SolverExtension.cpp:165). -/
structure Sdirk (K : Type) where
  a : K
  b : K
  c : K

/-- `mfem::SDIRK33Solver::Step` (external): three implicit solves with the same step `a * dt`; `src` gives the
source at a time. (src/solver/Solver.cpp:61-63) -/
noncomputable def sdirk33 (s : Sdirk K) (A : Matrix ι ι K) (src : K → ι → K) (c0 : Cache K ι) (x : ι → K) (t dt : K) :
    Option ((ι → K) × K × Cache K ι) := do
  let (k1, c1) ← implicitSolve A (src (t + s.a * dt)) c0 (s.a * dt) x
  let y := x + ((s.c - s.a) * dt) • k1
  let x1 := x + (s.b * dt) • k1
  let (k2, c2) ← implicitSolve A (src (t + s.c * dt)) c1 (s.a * dt) y
  let x2 := x1 + ((1 - s.a - s.b) * dt) • k2
  let (k3, c3) ← implicitSolve A (src (t + dt)) c2 (s.a * dt) x2
  some (x2 + (s.a * dt) • k3, t + dt, c3)

end Dgtd.Implicit
