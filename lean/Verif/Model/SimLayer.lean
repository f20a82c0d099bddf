/-
Model of a whole simulation with thin layers: the time loop of `Model/Simulate` around the evolution object of `Model/SgbcEvol`, whose
right-hand side changes the object itself.
-/
import Verif.Model.Simulate
import Verif.Model.SgbcEvol

namespace Dgtd.SimLayer
open Dgtd.SgbcEvol Dgtd.Simulate
open Dgtd.TimeLoop (trueDt keepGoing Outcome)

noncomputable section

/-- `mfem::RK4Solver::Step` (external; src/solver/Solver.cpp:45-47, 544) with the right-hand side of
src/evolution/GlobalEvolution.cpp:628-1088, which changes the evolution object.  `junk` is what uninitialised memory contains; it is looked at
once at most, when the scratch vector gets its size. -/
def rk4 {σ : Type} (S : Sys σ ℝ) (junk x : Nat → ℝ) (t dt : ℝ) (ev : Ev σ ℝ) : Option ((Nat → ℝ) × ℝ × Ev σ ℝ) := do
  let (k1, ev) ← mult S t x junk ev
  let z := x + (dt / 6) • k1
  let (k2, ev) ← mult S (t + dt / 2) (x + (dt / 2) • k1) junk ev
  let z := z + (dt / 3) • k2
  let (k3, ev) ← mult S (t + dt / 2) (x + (dt / 2) • k2) junk ev
  let z := z + (dt / 3) • k3
  let (k4, ev) ← mult S (t + dt) (x + dt • k3) junk ev
  some (z + (dt / 6) • k4, t + dt, ev)

/-- src/solver/Solver.cpp:539-548: checkpoint of the layers, explicit step, end of the step of the layers.  Without layers
(src/evolution/GlobalEvolution.h:31 `hasSGBC`) only the explicit step. -/
def advance {σ : Type} (S : Sys σ ℝ) (junk x : Nat → ℝ) (t dt : ℝ) (ev : Ev σ ℝ) : Option ((Nat → ℝ) × ℝ × Ev σ ℝ) :=
  if ev.states.isEmpty then rk4 S junk x t dt ev
  else do
    let ev ← commit S t dt x ev
    let (x, t, ev) ← rk4 S junk x t dt ev
    let ev ← finalize S x ev
    some (x, t, ev)

variable {V S R : Type}

/-- src/solver/Solver.cpp:535-551 `Solver::step`, `adv` being lines 539-548. -/
def stepWith (adv : V → ℝ → ℝ → S → Option (V × ℝ × S)) (dt final : ℝ) (s : Sim V S R) : Option (Sim V S R) :=
  match adv s.fields s.time (trueDt dt final s.time) s.cache with
  | none => none
  | some (x, t, c) => updateProbes final { s with time := t, fields := x, cache := c }

/-- src/solver/Solver.cpp:483-533 `Solver::run`, `fuel` bounding the number of iterations. -/
def runWith (adv : V → ℝ → ℝ → S → Option (V × ℝ × S)) (dt final : ℝ) : Nat → Sim V S R → Outcome (Sim V S R)
  | fuel, s =>
    if keepGoing dt final s.time then
      match fuel with
      | 0 => .outOfFuel
      | k + 1 =>
        match stepWith adv dt final s with
        | none => .ub
        | some s' => runWith adv dt final k s'
    else .done s

/-- A run with the explicit integrator and thin layers. (src/solver/Solver.cpp:483-551) -/
def run {σ : Type} (Y : Sys σ ℝ) (junk : Nat → ℝ) (dt final : ℝ) (fuel : Nat) (s : Sim (Nat → ℝ) (Ev σ ℝ) R) :
    Outcome (Sim (Nat → ℝ) (Ev σ ℝ) R) := runWith (advance Y junk) dt final fuel s

/-- The loop without layers of `Model/Simulate` is this one. (src/solver/Solver.cpp:483-551) -/
theorem run_eq [AddCommGroup V] [Module ℝ V] (q : Implicit.Sdirk ℝ) (o : TimeInt.Ode) (F : TimeInt.Tdo V S) (dt final : ℝ) :
    ∀ fuel (s : Sim V S R), Simulate.run q o F dt final fuel s = runWith (TimeInt.step q o F) dt final fuel s := by
  intro fuel
  induction fuel with
  | zero => intro s; unfold Simulate.run runWith; rfl
  | succ k ih =>
    intro s
    unfold Simulate.run runWith Simulate.step stepWith
    simp only [ih]
    rfl

end

end Dgtd.SimLayer
