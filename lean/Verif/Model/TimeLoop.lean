/-
Model of the time loop of the solver and of the probe bookkeeping.

Numbers: `double` is an element of a linearly ordered field `K` with a floor
function; rounding is not modelled.
-/
import Mathlib.Algebra.Order.Floor.Ring
import Mathlib.Algebra.Order.Field.Basic
import Mathlib.Tactic.Linarith
import Mathlib.Tactic.FieldSimp
import Mathlib.Tactic.Ring
import Mathlib.Tactic.NormNum

namespace Dgtd.TimeLoop

variable {K : Type*} [Field K] [LinearOrder K]

/-- Relative slack of the `while` test, `1e-8` (src/solver/Solver.cpp:497) and absolute
slack of the "is this the final instant" test, `1e-8`
(src/solver/ProbesManager.cpp:320,346,377,427,459; src/components/RCSSurfaceExporter.cpp:157). -/
def slack : K := 1 / 100000000

/-- src/solver/Solver.cpp:497 `while (time_ <= opts_.final_time - 1e-8*dt_)`. -/
def keepGoing (dt final t : K) : Bool := decide (t ≤ final - slack * dt)

/-- src/solver/Solver.cpp:537 `truedt = std::min(dt_, opts_.final_time - time_)`. -/
def trueDt (dt final t : K) : K := min dt (final - t)

/-- A cadence probe: exporter, field, point, near-field, domain-snapshot or RCS-surface probe
(src/components/Probes.h:8-164).  All six share the same gate.  `owned` models
`fesPoint.elementId != -2` (the probe point lies on this rank; ProbesManager.cpp:355,386) and is
`true` for the kinds without a point.  `recs` is the list of records written, oldest first, as
(cycle, time); the recorded field values are not modelled. -/
structure Probe (K : Type*) where
  steps : Int
  saves : Int
  owned : Bool
  recs  : List (Nat × K)
deriving DecidableEq

/-- The gate at the head of every `updateProbe`
(src/solver/ProbesManager.cpp:318-324, 344-350, 375-381, 425-431, 457-463;
src/components/RCSSurfaceExporter.cpp:155-160).
`none` is the undefined behaviour of `cycle_ % 0`. -/
def gate (final : K) (cycle : Nat) (steps : Int) (time : K) : Option Bool :=
  if slack ≤ |time - final| then
    if steps = 0 then none else some (decide ((cycle : Int) % steps = 0))
  else some true

/-- `updateProbe` for a cadence probe (same lines as `gate`): append one record if the gate opens.
(src/solver/ProbesManager.cpp:318-423) -/
def updateProbe (final : K) (cycle : Nat) (time : K) (p : Probe K) : Option (Probe K) :=
  match gate final cycle p.steps time with
  | none => none
  | some open_ =>
    if open_ && p.owned then some { p with recs := p.recs ++ [(cycle, time)] } else some p

/-- src/solver/ProbesManager.cpp:582 `static_cast<int>(std::ceil(finalTime_ / dt))`. -/
def totalSteps [FloorRing K] (final dt : K) : Int := ⌈final / dt⌉

/-- src/solver/ProbesManager.cpp:584-587 `stepsFromSaves`.  C++ `/` on `int` truncates. -/
def stepsFromSaves (total saves : Int) : Int :=
  if saves ≤ 0 then 1 else max 1 (Int.tdiv total saves)

/-- src/solver/ProbesManager.cpp:578-607 `recalculateExportSteps` for one cadence probe. -/
def recalculate [FloorRing K] (final dt : K) (p : Probe K) : Probe K :=
  if dt ≤ 0 then p
  else if p.saves > 0 then { p with steps := stepsFromSaves (totalSteps final dt) p.saves } else p

/-- The solver as seen by its clock: `σ` stands for the degrees of freedom
(src/solver/Solver.h: `fields_`, `time_`; ProbesManager `cycle_`, `probes`). (lines 21-90) -/
structure Sim (K σ : Type*) where
  time   : K
  fields : σ
  cycle  : Nat
  probes : List (Probe K)

/-- src/solver/ProbesManager.cpp:498-529 `updateProbes`: every probe, then `cycle_++`.
The order between the kinds is irrelevant because a probe only reads the shared clock. -/
def updateProbes {σ : Type*} (final : K) (s : Sim K σ) : Option (Sim K σ) :=
  match s.probes.mapM (updateProbe final s.cycle s.time) with
  | none => none
  | some ps => some { s with cycle := s.cycle + 1, probes := ps }

/-- src/solver/Solver.cpp:535-551 `Solver::step` without thin layers.  `ode` is MFEM's
`ODESolver::Step`, which advances the fields and adds `truedt` to the time. -/
def step {σ : Type*} (ode : K → K → σ → σ) (dt final : K) (s : Sim K σ) : Option (Sim K σ) :=
  let h := trueDt dt final s.time
  updateProbes final { s with time := s.time + h, fields := ode s.time h s.fields }

/-- Outcome of running the `while` loop with a bounded number of iterations. (src/solver/Solver.cpp:483-533) -/
inductive Outcome (α : Type*) where
  | done (s : α)      -- the loop condition became false
  | ub                -- undefined behaviour (`% 0`)
  | outOfFuel         -- still looping
deriving DecidableEq

/-- src/solver/Solver.cpp:483-533 `Solver::run`, `fuel` bounding the number of iterations.
The stability warning (502-516) has no effect on the state and is omitted. -/
def run {σ : Type*} (ode : K → K → σ → σ) (dt final : K) : Nat → Sim K σ → Outcome (Sim K σ)
  | fuel, s =>
    if keepGoing dt final s.time then
      match fuel with
      | 0 => .outOfFuel
      | n + 1 =>
        match step ode dt final s with
        | none => .ub
        | some s' => run ode dt final n s'
    else .done s

/-- src/solver/Solver.cpp:79-129: the part of the constructor that concerns the clock and the
probes (`time_{0.0}`, `recalculateExportSteps(dt_)`, `updateProbes(time_)`).
`ProbesManager::finalTime_` is the final time of the options. -/
def construct [FloorRing K] {σ : Type*} (dt final : K) (fields : σ) (probes : List (Probe K)) :
    Option (Sim K σ) :=
  updateProbes final
    { time := 0, fields := fields, cycle := 0, probes := probes.map (recalculate final dt) }

end Dgtd.TimeLoop
