/-
Model of the reading of the probes of a case file, src/driver/driver.cpp:707-860, and of the surface marker of the probes that
record a surface, src/solver/ProbesManager.cpp:531-539.  An absent member that is read anyway is undefined behaviour
(`operator[]` on a constant json object).
-/
import Verif.Model.SourceCfg
import Verif.Model.TimeLoop
import Verif.Model.ProbeFiles

namespace Dgtd.ProbeCfg
open Dgtd.Config (Err)
open Dgtd.SourceCfg (member)

/-- The members of a probe that set its cadence. (src/driver/driver.cpp:717-733) -/
structure Entry where
  steps : Option Int
  saves : Option Int

/-- The members of `solver_options` that are read here; an absent `solver_options` has none. (src/driver/driver.cpp:725-726) -/
structure Opts (K : Type) where
  finalTime : Option K
  timeStep  : Option K

variable {K : Type} [Field K] [LinearOrder K] [FloorRing K]

/-- src/driver/driver.cpp:717-733 `calculate_interval`; the cast to `int` is not bounded. -/
def interval (o : Opts K) (e : Entry) : Except Err Int :=
  match e.steps with
  | some s => .ok s
  | none =>
    match e.saves with
    | none => .ok 1
    | some n =>
      if n ≤ 0 then .ok 1
      else do
        let final ← member o.finalTime
        let dt ← member o.timeStep
        if dt ≤ 0 then .ok 1 else .ok (max 1 (Int.tdiv ⌈final / dt⌉ n))

/-- src/driver/driver.cpp:743-746, 751-758, 766-775, 789-791, 818-820, 830-832: the interval and the number of saves of a probe. -/
def buildProbe (o : Opts K) (owned : Bool) (e : Entry) : Except Err (TimeLoop.Probe K) := do
  let s ← interval o e
  pure ⟨s, e.saves.getD 0, owned, []⟩

/-- The probe as the run sees it: src/solver/Solver.cpp:122 with the time step that the solver chose. -/
def effective (o : Opts K) (final dt : K) (e : Entry) : Except Err (TimeLoop.Probe K) :=
  (buildProbe o true e).map (TimeLoop.recalculate final dt)

/-- src/driver/driver.cpp:749-761, 764-780: the point or field probes of a case with their numbers, given where each point was
found. -/
def number (k : ProbeFiles.Kind) (es : List (Int × (Nat → Int))) : List ProbeFiles.Probe :=
  es.mapIdx fun i e => ⟨k, i, e.1, true, e.2⟩

/-- All of them. (src/driver/driver.cpp:710-860) -/
def numbered (points fields : List (Int × (Nat → Int))) : List ProbeFiles.Probe :=
  number .point points ++ number .field fields

/-- src/solver/ProbesManager.cpp:531-539 `buildSurfaceMarker`; no check that the tag is in the array. -/
def surfaceMarker (maxAttr : Nat) (tags : List Int) : Except Err (List Nat) :=
  tags.foldlM (fun (m : List Nat) (t : Int) =>
    if 1 ≤ t ∧ t ≤ maxAttr then .ok (m.set (t - 1).toNat 1) else .error .ub) (List.replicate maxAttr 0)

end Dgtd.ProbeCfg
