/-
Model of the clock of the solver in floating-point arithmetic: the same loop as in `Model/TimeLoop`,
with every sum, difference and product rounded by a function `fl`.
-/
import Verif.Model.TimeLoop

namespace Dgtd.FloatClock
open Dgtd.TimeLoop (Outcome)

variable {K : Type*} [Field K] [LinearOrder K]

/-- src/solver/Solver.cpp:497 `opts_.final_time - 1e-8*dt_`: the literal is read as the double closest to it, then a
rounded product and a rounded difference. -/
def threshold (fl : K → K) (dt final : K) : K := fl (final - fl (fl (1 / 10 ^ 8) * dt))

/-- src/solver/Solver.cpp:497 `time_ <= opts_.final_time - 1e-8*dt_`. -/
def keepGoing (fl : K → K) (dt final t : K) : Bool := decide (t ≤ threshold fl dt final)

/-- src/solver/Solver.cpp:537 `std::min(dt_, opts_.final_time - time_)`. -/
def trueDt (fl : K → K) (dt final t : K) : K := min dt (fl (final - t))

/-- The solver as seen by its clock (src/solver/Solver.h:21-90); `seen` are the instants passed to the probes
(src/solver/ProbesManager.cpp:498), oldest first. -/
structure Sim (K σ : Type*) where
  time : K
  fields : σ
  seen : List K

/-- src/solver/Solver.cpp:535-551 `Solver::step` without thin layers.  `ode` is what the integrator does to the fields;
every integrator of the library advances the time with one rounded sum `t += dt`. -/
def step {σ : Type*} (fl : K → K) (ode : K → K → σ → σ) (dt final : K) (s : Sim K σ) : Sim K σ :=
  let h := trueDt fl dt final s.time
  let t := fl (s.time + h)
  { time := t, fields := ode s.time h s.fields, seen := s.seen ++ [t] }

/-- src/solver/Solver.cpp:483-533 `Solver::run`, `fuel` bounding the number of iterations. -/
def run {σ : Type*} (fl : K → K) (ode : K → K → σ → σ) (dt final : K) : Nat → Sim K σ → Outcome (Sim K σ)
  | fuel, s =>
    if keepGoing fl dt final s.time then
      match fuel with
      | 0 => .outOfFuel
      | n + 1 => run fl ode dt final n (step fl ode dt final s)
    else .done s

/-- src/solver/Solver.cpp:79-129: the clock at zero, which the probes see. -/
def construct {σ : Type*} (f0 : σ) : Sim K σ := { time := 0, fields := f0, seen := [0] }

end Dgtd.FloatClock
