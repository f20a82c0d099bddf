/-
Specification vocabulary for the time loop, independent of the loop itself.
-/
import Verif.Model.TimeLoop

namespace Dgtd.TimeLoop.Spec

variable {K : Type*} [Field K] [LinearOrder K]

/-- The instant number `c`: full steps from zero, the last one cut at the final time. -/
def instant (dt final : K) (c : Nat) : K := min ((c : K) * dt) final

/-- The number of steps of a run: the smallest `n` whose instant is within `1e-8` steps of the
final time, as a closed formula. -/
def stepCount [FloorRing K] (dt final : K) : Nat := (⌊final / dt - 1 / 100000000⌋ + 1).toNat

/-- Fields after `c` consecutive ODE steps between consecutive instants. -/
def fieldsAt {σ : Type*} (ode : K → K → σ → σ) (dt final : K) (f0 : σ) : Nat → σ
  | 0 => f0
  | c + 1 => ode (instant dt final c) (instant dt final (c + 1) - instant dt final c)
      (fieldsAt ode dt final f0 c)

/-- Is instant `c` to be recorded by a probe of interval `k`?  Either it is the final instant (up to
`1e-8`) or its number is a multiple of the interval. -/
def due (dt final : K) (k : Int) (c : Nat) : Bool :=
  decide (|instant dt final c - final| < 1 / 100000000) || decide (k ∣ (c : Int))

/-- The records of a probe of interval `k` after the instants `0 … n`. -/
def records (dt final : K) (k : Int) (n : Nat) : List (Nat × K) :=
  ((List.range (n + 1)).filter (due dt final k)).map fun c => (c, instant dt final c)

end Dgtd.TimeLoop.Spec
