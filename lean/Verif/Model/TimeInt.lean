/-
Model of the time integrators offered by the solver (src/solver/Solver.cpp:41-77, src/solver/SolverOptions.h:8-18) and
of the steps they take (src/solver/Solver.cpp:532-549).

The integrators are those of MFEM (linalg/ode.cpp, external); they are written here as that library documents them.
Numbers are real.  The three decimal constants of `mfem::SDIRK33Solver` are parameters.
-/
import Verif.Model.Implicit
import Verif.Model.TimeStep
import Mathlib.Data.Real.Basic
import Mathlib.Analysis.SpecialFunctions.Trigonometric.Basic

namespace Dgtd.TimeInt

open Dgtd.Implicit (Cache Sdirk)
open Dgtd.Config (EvolOp Err)

/-- `mfem::TimeDependentOperator` as an integrator sees it.  `mult t x` is `SetTime(t); Mult(x, k)`;
`implicitSolve t dt x` is `SetTime(t); ImplicitSolve(dt, x, k)`, which may change members of the operator; `none`: the
program stops. (src/solver/Solver.cpp:22-77, 535-549) -/
structure Tdo (V S : Type) where
  mult : ℝ → V → V
  implicitSolve : ℝ → ℝ → V → S → Option (V × S)

/-- src/solver/SolverOptions.h:8-18 `ode_type`. -/
inductive Ode where
  | rk4 | backwardEuler | trapezoidal | implicitMidpoint | sdirk33 | sdirk23 | sdirk34
deriving DecidableEq

/-- src/solver/Solver.cpp:41-77 `assignODESolver`. -/
def assignOde : Nat → Except Err Ode
  | 0 => .ok .rk4
  | 1 => .ok .backwardEuler
  | 2 => .ok .trapezoidal
  | 3 => .ok .implicitMidpoint
  | 4 => .ok .sdirk33
  | 5 => .ok .sdirk23
  | 6 => .ok .sdirk34
  | _ => .error .throw

section
variable {V S : Type} [AddCommGroup V] [Module ℝ V]

/-- `mfem::RK4Solver::Step` (external; src/solver/Solver.cpp:45-47). -/
noncomputable def rk4 (F : Tdo V S) (x : V) (t dt : ℝ) : V × ℝ :=
  let k1 := F.mult t x
  let z := x + (dt / 6) • k1
  let k2 := F.mult (t + dt / 2) (x + (dt / 2) • k1)
  let z := z + (dt / 3) • k2
  let k3 := F.mult (t + dt / 2) (x + (dt / 2) • k2)
  let z := z + (dt / 3) • k3
  let k4 := F.mult (t + dt) (x + dt • k3)
  (z + (dt / 6) • k4, t + dt)

/-- `mfem::BackwardEulerSolver::Step` (external; src/solver/Solver.cpp:49-51). -/
noncomputable def backwardEuler (F : Tdo V S) (x : V) (t dt : ℝ) (s : S) : Option (V × ℝ × S) := do
  let (k, s) ← F.implicitSolve (t + dt) dt x s
  some (x + dt • k, t + dt, s)

/-- `mfem::TrapezoidalRuleSolver::Step` (external; src/solver/Solver.cpp:53-55). -/
noncomputable def trapezoidal (F : Tdo V S) (x : V) (t dt : ℝ) (s : S) : Option (V × ℝ × S) := do
  let k := F.mult t x
  let y := x + (dt / 2) • k
  let x1 := x + (dt / 2) • k
  let (k, s) ← F.implicitSolve (t + dt) (dt / 2) y s
  some (x1 + (dt / 2) • k, t + dt, s)

/-- `mfem::ImplicitMidpointSolver::Step` (external; src/solver/Solver.cpp:57-59). -/
noncomputable def implicitMidpoint (F : Tdo V S) (x : V) (t dt : ℝ) (s : S) : Option (V × ℝ × S) := do
  let (k, s) ← F.implicitSolve (t + dt / 2) (dt / 2) x s
  some (x + dt • k, t + dt, s)

/-- `mfem::SDIRK33Solver::Step` (external; src/solver/Solver.cpp:61-63) with the constants `q`. -/
noncomputable def sdirk33 (q : Sdirk ℝ) (F : Tdo V S) (x : V) (t dt : ℝ) (s : S) : Option (V × ℝ × S) := do
  let (k, s) ← F.implicitSolve (t + q.a * dt) (q.a * dt) x s
  let y := x + ((q.c - q.a) * dt) • k
  let x1 := x + (q.b * dt) • k
  let (k, s) ← F.implicitSolve (t + q.c * dt) (q.a * dt) y s
  let x2 := x1 + ((1 - q.a - q.b) * dt) • k
  let (k, s) ← F.implicitSolve (t + dt) (q.a * dt) x2 s
  some (x2 + (q.a * dt) • k, t + dt, s)

/-- `mfem::SDIRK23Solver` with the option 2 (external; src/solver/Solver.cpp:65-67): its coefficient. -/
noncomputable def gamma23 : ℝ := (2 - Real.sqrt 2) / 2

/-- `mfem::SDIRK23Solver::Step` (external). (src/solver/Solver.cpp:65-67) -/
noncomputable def sdirk23 (F : Tdo V S) (x : V) (t dt : ℝ) (s : S) : Option (V × ℝ × S) := do
  let (k, s) ← F.implicitSolve (t + gamma23 * dt) (gamma23 * dt) x s
  let y := x + ((1 - 2 * gamma23) * dt) • k
  let x1 := x + (dt / 2) • k
  let (k, s) ← F.implicitSolve (t + (1 - gamma23) * dt) (gamma23 * dt) y s
  some (x1 + (dt / 2) • k, t + dt, s)

/-- `mfem::SDIRK34Solver` (external; src/solver/Solver.cpp:69-71): its two coefficients. -/
noncomputable def a34 : ℝ := 1 / Real.sqrt 3 * Real.cos (Real.pi / 18) + 1 / 2

/-- The second one. (src/solver/Solver.cpp:69-71) -/
noncomputable def b34 : ℝ := 1 / (6 * (2 * a34 - 1) * (2 * a34 - 1))

/-- `mfem::SDIRK34Solver::Step` (external). (src/solver/Solver.cpp:69-71) -/
noncomputable def sdirk34 (F : Tdo V S) (x : V) (t dt : ℝ) (s : S) : Option (V × ℝ × S) := do
  let (k, s) ← F.implicitSolve (t + a34 * dt) (a34 * dt) x s
  let y := x + ((1 / 2 - a34) * dt) • k
  let z := x + ((2 * a34) * dt) • k
  let x1 := x + (b34 * dt) • k
  let (k, s) ← F.implicitSolve (t + 1 / 2 * dt) (a34 * dt) y s
  let z1 := z + ((1 - 4 * a34) * dt) • k
  let x2 := x1 + ((1 - 2 * b34) * dt) • k
  let (k, s) ← F.implicitSolve (t + (1 - a34) * dt) (a34 * dt) z1 s
  some (x2 + (b34 * dt) • k, t + dt, s)

/-- src/solver/Solver.cpp:544: `odeSolver_->Step(fields_.allDOFs(), time_, truedt)`. -/
noncomputable def step (q : Sdirk ℝ) : Ode → Tdo V S → V → ℝ → ℝ → S → Option (V × ℝ × S)
  | .rk4, F, x, t, dt, s => some ((rk4 F x t dt).1, (rk4 F x t dt).2, s)
  | .backwardEuler, F, x, t, dt, s => backwardEuler F x t dt s
  | .trapezoidal, F, x, t, dt, s => trapezoidal F x t dt s
  | .implicitMidpoint, F, x, t, dt, s => implicitMidpoint F x t dt s
  | .sdirk33, F, x, t, dt, s => sdirk33 q F x t dt s
  | .sdirk23, F, x, t, dt, s => sdirk23 F x t dt s
  | .sdirk34, F, x, t, dt, s => sdirk34 F x t dt s

/-- src/solver/Solver.cpp:532-549: successive calls of `step`; `dts` lists the sizes.  Probes, which only read, and
thin layers are left out. -/
noncomputable def run (q : Sdirk ℝ) (o : Ode) (F : Tdo V S) : List ℝ → V → ℝ → S → Option (V × ℝ × S)
  | [], x, t, s => some (x, t, s)
  | dt :: rest, x, t, s => do
    let (x, t, s) ← step q o F x t dt s
    run q o F rest x t s

end

section
variable {ι : Type} [Fintype ι] [DecidableEq ι]

/-- The global operator: `Mult` and `ImplicitSolve` (src/evolution/GlobalEvolution.cpp:628-1088, 1090-1175) without thin
layers, in the branch for small serial systems.  `A` is its matrix, `src` the contribution of the sources. -/
noncomputable def globalTdo (A : Matrix ι ι ℝ) (src : ℝ → ι → ℝ) : Tdo (ι → ℝ) (Cache ℝ ι) := by
  classical
  exact
  { mult := fun t x => A.mulVec x + src t
    implicitSolve := fun t dt x c => Implicit.implicitSolve A (src t) c dt x }

/-- The other two operators, which override `Mult` only (src/evolution/MaxwellEvolution.h,
src/evolution/HesthavenEvolution.h): the implicit solve is that of the base class, which stops the program. (lines 15-40 and 14-40) -/
def explicitTdo {V S : Type} (f : ℝ → V → V) : Tdo V S where
  mult := f
  implicitSolve := fun _ _ _ _ => none

/-- src/solver/Solver.cpp:22-39 `assignEvolutionOperator`: which of the two kinds an operator is. -/
noncomputable def evolTdo (op : EvolOp) (A : Matrix ι ι ℝ) (src : ℝ → ι → ℝ) : Tdo (ι → ℝ) (Cache ℝ ι) :=
  match op with
  | .global => globalTdo A src
  | .maxwell | .hesthaven => explicitTdo (fun t x => A.mulVec x + src t)

end

end Dgtd.TimeInt
