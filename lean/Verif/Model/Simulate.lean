/-
Model of a whole simulation without thin layers: construction of the solver, time loop with an integrator, and probes that keep what they read.

It joins the models of the options and of the automatic time step (`Model/TimeStep`), of the integrators (`Model/TimeInt`) and of the clock of
the probes (`Model/TimeLoop`).
-/
import Verif.Model.TimeLoop
import Verif.Model.TimeStep
import Verif.Model.TimeInt
import Mathlib.Data.Real.Basic
import Mathlib.Algebra.Order.Archimedean.Real.Basic

namespace Dgtd.Simulate
open Dgtd.Config (Err)
open Dgtd.TimeLoop (gate trueDt keepGoing totalSteps stepsFromSaves Outcome)
open Dgtd.TimeInt (Tdo Ode)
open Dgtd.Implicit (Sdirk)

noncomputable section

variable {V S R : Type}

/-- A cadence probe (src/components/Probes.h:8-164).  `read` is what it takes from the fields: the value of a component at a point
(src/solver/ProbesManager.cpp:357), the six components at a point (389-394), or a copy of the fields on the mesh or on part of it (341, 438-442,
492, 557-576).  `recs` lists what it has recorded, oldest first: number, time and reading.  `owned` is false for a point on another rank. -/
structure Probe (V R : Type) where
  steps : Int
  saves : Int
  owned : Bool
  read  : V → R
  recs  : List (Nat × ℝ × R)

/-- src/solver/ProbesManager.cpp:318-496 and 557-576 `updateProbe`: when the gate opens, one more record. -/
def updateProbe (final : ℝ) (cycle : Nat) (time : ℝ) (x : V) (p : Probe V R) : Option (Probe V R) :=
  match gate final cycle p.steps time with
  | none => none
  | some b => if b && p.owned then some { p with recs := p.recs ++ [(cycle, time, p.read x)] } else some p

/-- src/solver/ProbesManager.cpp:578-607 `recalculateExportSteps` for one probe. -/
def recalculate (final dt : ℝ) (p : Probe V R) : Probe V R :=
  if dt ≤ 0 then p
  else if p.saves > 0 then { p with steps := stepsFromSaves (totalSteps final dt) p.saves } else p

/-- The solver between two steps: `time_`, `fields_`, the state of the operator and `cycle_` and the probes of the manager
(src/solver/Solver.h:21-90). -/
structure Sim (V S R : Type) where
  time   : ℝ
  fields : V
  cache  : S
  cycle  : Nat
  probes : List (Probe V R)

/-- src/solver/ProbesManager.cpp:498-529 `updateProbes`. -/
def updateProbes (final : ℝ) (s : Sim V S R) : Option (Sim V S R) :=
  match s.probes.mapM (updateProbe final s.cycle s.time s.fields) with
  | none => none
  | some ps => some { s with cycle := s.cycle + 1, probes := ps }

variable [AddCommGroup V] [Module ℝ V]

/-- src/solver/Solver.cpp:535-551 `Solver::step` without thin layers.  `none` is a program that stops or whose behaviour is undefined. -/
def step (q : Sdirk ℝ) (o : Ode) (F : Tdo V S) (dt final : ℝ) (s : Sim V S R) : Option (Sim V S R) :=
  match TimeInt.step q o F s.fields s.time (trueDt dt final s.time) s.cache with
  | none => none
  | some (x, t, c) => updateProbes final { s with time := t, fields := x, cache := c }

/-- src/solver/Solver.cpp:483-533 `Solver::run`, `fuel` bounding the number of iterations.  The warning about the norm of the fields
(502-516) has no effect on the state and is left out. -/
def run (q : Sdirk ℝ) (o : Ode) (F : Tdo V S) (dt final : ℝ) : Nat → Sim V S R → Outcome (Sim V S R)
  | fuel, s =>
    if keepGoing dt final s.time then
      match fuel with
      | 0 => .outOfFuel
      | k + 1 =>
        match step q o F dt final s with
        | none => .ub
        | some s' => run q o F dt final k s'
    else .done s

/-- src/solver/Solver.cpp:79-129, the constructor on one rank: the options are checked, the time step and the integrator chosen, the intervals
of the probes computed, and the initial fields recorded.  `x` are the fields the sources leave (src/solver/SourcesManager.cpp:16-36), `c` the
initial state of the operator.  The result is the time step, the integrator and the solver. -/
def construct (lobatto : Nat → List ℝ) (m : TimeStep.Setup) (o : TimeStep.Options) (x : V) (c : S) (ps : List (Probe V R)) :
    Except Err (ℝ × Ode × Sim V S R) := do
  let (dt, k) ← TimeStep.construct (TimeStep.estimateTimeStep lobatto m) o 0
  let ode ← TimeInt.assignOde k
  match updateProbes o.finalTime { time := 0, fields := x, cache := c, cycle := 0, probes := ps.map (recalculate o.finalTime dt) } with
  | none => .error .ub
  | some s => .ok (dt, ode, s)

end

end Dgtd.Simulate
