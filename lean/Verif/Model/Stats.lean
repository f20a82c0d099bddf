/-
Model of the statistics that a run leaves behind: src/driver/driver.cpp:1626-1645, src/solver/Solver.cpp:131-150, 356-443.

Paths start below `Exports/`; directories without files are not represented, so `create_directories` does nothing; the name of a case is one
component of a path.  The values of a block are kept as numbers, not as printed; clock readings and memory are given.  Opening a file is
assumed to succeed.
-/
import Verif.Model.ProbeFiles

namespace Dgtd.Stats
open Dgtd.ProbeFiles (Name Path FS Op exec execAll)

/-- `getRunModeTag`. (src/driver/driver.cpp:1602-1622, src/solver/ProbesManager.cpp:23-41) -/
def tag (cuda : Bool) (worldSize : Nat) : String :=
  if cuda then "cuda-" ++ toString worldSize
  else if worldSize = 1 then "single-core"
  else "mpi-" ++ toString worldSize

/-- `Exports/<mode>/<case>/SimulationStats/`. (src/driver/driver.cpp:1634, src/solver/Solver.cpp:134, 414) -/
def dirOf (cuda : Bool) (worldSize : Nat) (case : String) : Path := [.dir (tag cuda worldSize), .dir case, .dir "SimulationStats"]

/-- `statistics_rank<r>.dat` in it. (src/solver/Solver.cpp:135, 418) -/
def fileOf (cuda : Bool) (worldSize : Nat) (case : String) (r : Nat) : Path := dirOf cuda worldSize case ++ [.rank r]

/-- What `Solver::run` writes at its end. (src/solver/Solver.cpp:421-439) -/
structure Stats (K : Type) where
  runtime  : K
  finalNs  : K
  stepNs   : K
  elements : Nat
  avgSize  : K
  dofs     : Nat
  /-- entries for the local unknowns, entries with those of the neighbours, entries that are not zero -/
  operator : Option (Nat × Nat × Nat)
  memory   : Nat
deriving DecidableEq

/-- A block of lines of the file: that of the constructor of `Solver`, or that of `Solver::run`. (src/solver/Solver.cpp:141-145, 421-439) -/
inductive Block (K : Type) where
  | init (time : K) (peak : Nat)
  | run (s : Stats K)
deriving DecidableEq

/-- What a rank has when it writes: the sizes of its elements, the number of its unknowns, and of its global operator, if it uses that one, rows,
columns and stored entries; and what it reads from the clock and the operating system. (src/solver/Solver.cpp:358-370, 421-439) -/
structure Local (K : Type) where
  sizes    : List K
  dofs     : Nat
  operator : Option (Nat × Nat × Nat)
  initTime : K
  peak     : Nat
  runtime  : K
  memory   : Nat

variable {K : Type} [Field K]

/-- Times are metres of light; the file has nanoseconds. (src/solver/Solver.cpp:425-426) -/
def nanoseconds (light : K) (t : K) : K := t / light * 10 ^ 9

/-- `Solver::calcAverageElementSizeInMesh`; a rank without elements gets `0 / 0`, here 0. (src/solver/Solver.cpp:356-367) -/
def average (sizes : List K) : K := sizes.sum / (sizes.length : K)

/-- src/solver/Solver.cpp:421-439.  The square is computed in floating point; it is exact below 2^53. -/
def statsOf (light final dt : K) (l : Local K) : Stats K where
  runtime := l.runtime
  finalNs := nanoseconds light final
  stepNs := nanoseconds light dt
  elements := l.sizes.length
  avgSize := average l.sizes
  dofs := l.dofs
  operator := l.operator.map fun (rows, cols, entries) => (rows ^ 2, rows * cols, entries)
  memory := l.memory

/-- `prepareExportDirectories`: the first rank removes what there is. (src/driver/driver.cpp:1626-1642) -/
def clearOps (cuda : Bool) (n : Nat) (case : String) (r : Nat) : List (Op (Block K)) :=
  if r = 0 then [.removeAll (dirOf cuda n case)] else []

/-- The end of the constructor of `Solver`; solvers inside thin layers write nothing. (src/solver/Solver.cpp:131-150) -/
def initOps (layer cuda : Bool) (n : Nat) (case : String) (r : Nat) (l : Local K) : List (Op (Block K)) :=
  if layer then [] else [.append (fileOf cuda n case r) (.init l.initTime l.peak)]

/-- `Solver::writeSimulationStatistics`. (src/solver/Solver.cpp:404-443) -/
def runOps (layer cuda : Bool) (n : Nat) (case : String) (light final dt : K) (r : Nat) (l : Local K) : List (Op (Block K)) :=
  if layer then [] else [.append (fileOf cuda n case r) (.run (statsOf light final dt l))]

/-- All that a rank does after the barrier of `prepareExportDirectories`: its own solver and the `layers` solvers it makes for the nodes of thin
layers, which are never run as such. (src/solver/Solver.cpp:131-150, 531; src/solver/SolverExtension.cpp:495-510) -/
def prog (cuda : Bool) (n : Nat) (case : String) (light final dt : K) (layers : List (Local K)) (r : Nat) (l : Local K) : List (Op (Block K)) :=
  layers.flatMap (initOps true cuda n case r) ++ initOps false cuda n case r l ++ runOps false cuda n case light final dt r l

end Dgtd.Stats
