/-
Model of how the ranks of a run talk to each other: the communication calls every rank makes from
reading the case to the end of the run, in the order of the code, and MPI's rule for when a rank
may return from a call.

Only the calls are modelled here.  What the ranks compute between two calls appears as data of
the rank (`Local`), about which nothing is assumed.
-/
import Verif.Model.TimeLoop
import Mathlib.Order.Bounds.Basic
import Mathlib.Data.Rat.Defs
import Mathlib.Algebra.Order.Ring.Rat
import Mathlib.Algebra.Field.Rat
import Mathlib.Data.Set.Defs
import Mathlib.Logic.Function.Basic

namespace Dgtd.Coll

open Dgtd.TimeLoop

/-- The communication calls of a run.
* `barrier`: `MPI_Barrier` (src/driver/driver.cpp:1181,1643; src/evolution/GlobalEvolution.cpp:185,241;
  src/solver/ProbesManager.cpp:76,197,234,295,339,479,628).
* `split`: `MPI_Comm_split_type` on the world communicator in `isNodeRoot`
  (src/solver/ProbesManager.cpp:11-21); the release of the new communicator is not separated.
* `find`: `ParMesh::FindPoints` of MFEM (src/solver/ProbesManager.cpp:164,271).
* `save`: `ParaViewDataCollection::Save` of MFEM (src/solver/ProbesManager.cpp:341).
* `maxReduce`: `MPI_Allreduce` with `MPI_MAX` (src/solver/Solver.cpp:506;
  src/evolution/GlobalEvolution.cpp:1033-1034).
* `minReduce`: `MPI_Allreduce` with `MPI_MIN` (src/driver/driver.cpp:447,470).
* `gather`: `MPI_Gather` (src/evolution/GlobalEvolution.cpp:1050-1052).
* `exchange`: `ExchangeFaceNbrData` of a mesh, a space or one field component: every rank sends
  to and receives from the ranks it shares faces with (src/solver/Solver.cpp:18;
  src/solver/ProbesManager.cpp:67-68; src/evolution/GlobalEvolution.cpp:40,772-773,1123-1124,1184-1185;
  src/evolution/MaxwellEvolution.cpp:50,209-210; src/components/DGOperatorFactory.h:1432).  MFEM
  skips the exchange of a mesh or space that was done before, on all ranks alike; the skip is not
  modelled.
* `finalize`: `MPI_Finalize` (src/launcher/launcher.cpp:88).
The calls MFEM makes when it distributes the mesh (src/components/Model.cpp:53) are not modelled.
(src/driver/driver.cpp:447-1643) -/
inductive Op where
  | barrier | split | find | save | maxReduce | minReduce | gather | exchange | finalize
deriving DecidableEq

/-- Does the call give the same result to every rank?  The others give every rank its own.
(src/solver/Solver.cpp:506; src/driver/driver.cpp:447,470) -/
def Op.shared : Op → Bool
  | .barrier | .maxReduce | .minReduce | .finalize => true
  | _ => false

/-- What is left to do for a rank: nothing, nothing because it stopped with an error
(an uncaught exception or a signal), or a call with the number it contributes and what follows for
every result. (src/launcher/launcher.cpp:63-90) -/
inductive Proc where
  | done
  | abort
  | call (o : Op) (v : ℚ) (k : ℚ → Proc)

/-- A rank in the middle of a run: what is left, the calls it has completed with the number
contributed and the result, oldest first, and whether it waits in the next call.
(src/launcher/launcher.cpp:63-90) -/
structure Rank where
  prog : Proc
  log : List (Op × ℚ × ℚ)
  waiting : Bool

/-- The calls a rank has entered, oldest first. (src/launcher/launcher.cpp:63-90) -/
def Rank.posted (r : Rank) : List (Op × ℚ) :=
  r.log.map (fun e => (e.1, e.2.1)) ++
    match r.waiting, r.prog with
    | true, .call o v _ => [(o, v)]
    | _, _ => []

/-- The calls of all ranks together, and those between neighbours, are counted separately: MPI
matches the `n`-th collective call of a rank with the `n`-th of every other rank, and the `n`-th
message to a neighbour with the `n`-th receive there. (src/evolution/GlobalEvolution.cpp:772-773) -/
def colls (l : List (Op × ℚ)) : List (Op × ℚ) := l.filter fun e => e.1 ≠ .exchange

/-- See `colls`. (src/evolution/GlobalEvolution.cpp:772-773) -/
def exchanges (l : List (Op × ℚ)) : List (Op × ℚ) := l.filter fun e => e.1 = .exchange

/-- The number rank `s` contributes to the collective call with index `m`.
(src/solver/Solver.cpp:506) -/
def contrib {ι : Type*} (σ : ι → Rank) (m : ℕ) (s : ι) : ℚ := (((colls (σ s).posted)[m]?).map Prod.snd).getD 0

/-- May rank `r` return from the call it waits in?  From a collective call when every rank has
entered its call with the same number and that is the same kind of call (if it is another kind, the
ranks wait for ever); from an exchange when every neighbour has entered as many exchanges.
(src/solver/Solver.cpp:506; src/evolution/GlobalEvolution.cpp:772-773) -/
def Ready {ι : Type*} (G : ι → ι → Prop) (σ : ι → Rank) (r : ι) (o : Op) : Prop :=
  if o = .exchange then
    ∀ s, G r s → (exchanges (σ r).posted).length ≤ (exchanges (σ s).posted).length
  else ∀ s, ∃ v, (colls (σ s).posted)[(colls (σ r).posted).length - 1]? = some (o, v)

/-- The result `x` of the call: the largest or smallest contribution for the reductions, nothing for
a barrier, anything for the calls that give every rank its own result.  `m` is the index of
the call among the collective ones. (src/solver/Solver.cpp:506; src/driver/driver.cpp:447,470) -/
def Gives {ι : Type*} (σ : ι → Rank) (m : ℕ) (o : Op) (x : ℚ) : Prop :=
  match o with
  | .maxReduce => IsGreatest (Set.range (contrib σ m)) x
  | .minReduce => IsLeast (Set.range (contrib σ m)) x
  | .barrier | .finalize => x = 0
  | _ => True

/-- One thing happens: a rank enters its next call, or returns from it.  The order in which the
ranks move is not fixed. (src/launcher/launcher.cpp:63-90) -/
inductive Step {ι : Type*} [DecidableEq ι] (G : ι → ι → Prop) (σ : ι → Rank) : (ι → Rank) → Prop
  | enter (r : ι) (o : Op) (v : ℚ) (k : ℚ → Proc) (hp : (σ r).prog = .call o v k)
      (hw : (σ r).waiting = false) :
      Step G σ (Function.update σ r ⟨(σ r).prog, (σ r).log, true⟩)
  | leave (r : ι) (o : Op) (v : ℚ) (k : ℚ → Proc) (x : ℚ) (hp : (σ r).prog = .call o v k)
      (hw : (σ r).waiting = true) (hr : Ready G σ r o)
      (hx : Gives σ ((colls (σ r).posted).length - 1) o x) :
      Step G σ (Function.update σ r ⟨k x, (σ r).log ++ [(o, v, x)], false⟩)

/-- Every rank at the start of its program. (src/launcher/launcher.cpp:63) -/
def start {ι : Type*} (p : ι → Proc) : ι → Rank := fun r => ⟨p r, [], false⟩

/-! ### The calls of a run -/

/-- Calls whose results do not matter for what is called next. (src/driver/driver.cpp:1636-1643) -/
def seq : List (Op × ℚ) → Proc → Proc
  | [], k => k
  | (o, v) :: l, k => .call o v fun _ => seq l k

/-- `n` exchanges in a row. (src/evolution/GlobalEvolution.cpp:771-774) -/
def swaps (n : ℕ) : List (Op × ℚ) := List.replicate n (.exchange, 0)

/-- The spatial operators. (src/solver/Solver.cpp:22-40) -/
inductive Evol where
  | global | maxwell | hesthaven
deriving DecidableEq

/-- The time integrators by the calls they make to the operator: four products for RK4; one product
and one implicit solve for the trapezoidal rule; as many implicit solves as stages for the others
(one for backward Euler and implicit midpoint, three for SDIRK33 and SDIRK34, two for SDIRK23).
(src/solver/Solver.cpp:42-78) -/
inductive Integrator where
  | rk4 | trapezoidal | stages (n : ℕ)
deriving DecidableEq

/-- A recording of states for model reduction: first and last time and number of snapshots.
(src/components/Probes.h:8-164) -/
structure MorProbe where
  first : ℚ
  last : ℚ
  saves : Int

/-- What the ranks have in common: the case and the options of the build.
* `reload`: the mesh file is read twice (src/driver/driver.cpp:1254-1260);
* `delays`: the sources with an automatic delay (src/driver/driver.cpp:575-577 and the same test for
  dipoles);
* `exporters`, `snapshots`, `others`: the cadences of the exporter probes, of the domain snapshot
  probes, and of the field, point, near-field and surface probes, after
  `recalculateExportSteps`;
* `points`, `fields`, `nears`, `mors`: the numbers of point, field and near-field probes and
  the model-reduction probes;
* `timers`: `SHOW_TIMER_INFORMATION` was defined;
* `order`, `final`, `cfl`: the options checked at start (src/solver/Solver.cpp:143-154);
* `dt`: the time step, computed from the whole mesh on every rank (src/solver/Solver.cpp:302-353).
The spectral analysis is assumed to be off. (src/solver/SolverOptions.h:19-40) -/
structure Case where
  reload : Bool
  delays : ℕ
  exporters : List Int
  snapshots : List Int
  others : List Int
  points : ℕ
  fields : ℕ
  nears : ℕ
  mors : List MorProbe
  op : Evol
  integrator : Integrator
  timers : Bool
  order : Int
  cfl : ℚ
  dt : ℚ
  final : ℚ

/-- What differs from rank to rank: the smallest distance or phase on its part of the injection
surface, for every source; whether its fields look unstable after every step
(src/solver/Solver.cpp:503-504); the number of products its linear solver makes in every
implicit solve (step, stage).  The thin layers a rank owns are advanced by solvers of their own on
a communicator of one rank (src/solver/SolverExtension.cpp:136) and do not talk to other ranks.
(src/driver/driver.cpp:438-448) -/
structure Local where
  reach : ℕ → ℚ
  unstable : ℕ → Bool
  products : ℕ → ℕ → ℕ

/-- `buildSolver` up to the constructor of the solver: reading the mesh, sources, export directories
(src/driver/driver.cpp:1176-1183, 1242-1260, 442-472, 1622-1645, 1647-1662). -/
def buildCalls (c : Case) (l : Local) : List (Op × ℚ) :=
  (.barrier, 0) :: (if c.reload then [(.barrier, 0)] else []) ++
    (List.range c.delays).map (fun s => (.minReduce, l.reach s)) ++ [(.barrier, 0)]

/-- The members of the solver: the space and the probes
(src/solver/Solver.cpp:15-20, 80-92; src/solver/ProbesManager.cpp:65-76, 94-125, 156-183, 264-278, 285-295). -/
def memberCalls (c : Case) : List (Op × ℚ) :=
  swaps 1 ++ c.exporters.flatMap (fun _ => swaps 2 ++ [(.split, 0), (.barrier, 0)]) ++
    List.replicate c.points (.find, 0) ++ List.replicate c.fields (.find, 0) ++
    (List.replicate c.nears [(Op.split, (0 : ℚ)), (.barrier, 0)]).flatten

/-- The constructor of the operator (src/solver/Solver.cpp:22-40;
src/evolution/GlobalEvolution.cpp:32-40, 185, 241, 325-328; src/evolution/MaxwellEvolution.cpp:39-50).
Between the two barriers the ranks with thin layers build their solvers. -/
def operatorCalls (c : Case) : List (Op × ℚ) :=
  match c.op with
  | .global => swaps 1 ++ [(.barrier, 0), (.barrier, 0)] ++ swaps 1
  | .maxwell => swaps 1
  | .hesthaven => []

/-- `initPointFieldProbeExport` (src/solver/ProbesManager.cpp:184-262), called at cycle zero. -/
def fileCalls (c : Case) : List (Op × ℚ) :=
  (if c.points = 0 then [] else [(.split, 0), (.barrier, 0)]) ++
    (if c.fields = 0 then [] else [(.split, 0), (.barrier, 0)])

/-- The recordings for model reduction at one instant: the first time a recording is inside its
window it makes its directory (src/solver/ProbesManager.cpp:609-631).  `f` says which have done
so. -/
def morCalls (t : ℚ) : List MorProbe → List Bool → List (Op × ℚ) × List Bool
  | p :: ps, b :: bs =>
    let rest := morCalls t ps bs
    if p.saves ≤ 0 ∨ t < p.first - 1 / 1000000000000 ∨ p.last + 1 / 1000000000000 < t ∨ b then
      (rest.1, b :: rest.2)
    else ((.split, 0) :: (.barrier, 0) :: rest.1, true :: rest.2)
  | _, bs => ([], bs)

/-- `updateProbes` (src/solver/ProbesManager.cpp:316-342, 455-531): the exporters whose gate opens
make a directory and save; the domain snapshots make theirs at cycle zero.  A cadence of
zero is a division by zero. -/
def updateProbes (c : Case) (cycle : ℕ) (t : ℚ) (f : List Bool) (k : List Bool → Proc) : Proc :=
  match c.exporters.mapM (gate c.final cycle · t), c.snapshots.mapM (gate c.final cycle · t),
      c.others.mapM (gate c.final cycle · t) with
  | some es, some ss, some _ =>
    seq (es.flatMap (fun b => if b then [(.split, 0), (.barrier, 0), (.save, 0)] else []) ++
        ss.flatMap (fun b => if b && cycle == 0 then [(.split, 0), (.barrier, 0)] else []) ++
        (morCalls t c.mors f).1)
      (k (morCalls t c.mors f).2)
  | _, _, _ => .abort

/-- The counters of the timing report: calls since the last report and its time
(src/evolution/GlobalEvolution.cpp:1011-1013). -/
structure Timing where
  count : ℕ
  last : ℚ

/-- The timing report at the end of a product (src/evolution/GlobalEvolution.cpp:1003-1083), at
simulation time `t` on `P` ranks. -/
def report (P : ℕ) (t : ℚ) (a : Timing) (k : Timing → Proc) : Proc :=
  let n := a.count + 1
  let want : Bool := decide (50 ≤ n ∧ (a.last < 0 ∨ a.last + 1 / 20 ≤ t))
  if 1 < P then
    .call .maxReduce (if want then 1 else 0) fun g =>
      if g ≠ 0 then .call .gather 0 fun _ => k ⟨0, t⟩ else k ⟨n, a.last⟩
  else if want then k ⟨0, t⟩ else k ⟨n, a.last⟩

/-- A product with the operator (src/evolution/GlobalEvolution.cpp:771-774, 1003-1083;
src/evolution/MaxwellEvolution.cpp:200-212).  The nodal operator does not communicate. -/
def product (P : ℕ) (c : Case) (t : ℚ) (a : Timing) (k : Timing → Proc) : Proc :=
  match c.op with
  | .global => seq (swaps 6) (if c.timers then report P t a k else k a)
  | .maxwell => seq (swaps 6) (k a)
  | .hesthaven => k a

/-- An implicit solve (src/evolution/GlobalEvolution.cpp:1090-1226): one exchange of the six components
for the right hand side and one for every product `n` of the linear solver.  Only the global
operator has it; for the others MFEM stops with an error. -/
def solve (c : Case) (n : ℕ) (k : Proc) : Proc :=
  match c.op with
  | .global => seq (swaps (6 + 6 * n)) k
  | _ => .abort

/-- The implicit solves of the stages `s, s + 1, …`, `n` of them (src/solver/Solver.cpp:42-78). -/
def solves (c : Case) (m : ℕ → ℕ) (s : ℕ) : ℕ → Proc → Proc
  | 0, k => k
  | n + 1, k => solve c (m s) (solves c m (s + 1) n k)

/-- MFEM's `ODESolver::Step` of step number `i`, from `t` over `h`
(src/solver/Solver.cpp:544). -/
def advance (P : ℕ) (c : Case) (l : Local) (i : ℕ) (t h : ℚ) (a : Timing) (k : Timing → Proc) : Proc :=
  match c.integrator with
  | .rk4 =>
    product P c t a fun a => product P c (t + h / 2) a fun a => product P c (t + h / 2) a fun a =>
      product P c (t + h) a k
  | .trapezoidal => product P c t a fun a => solves c (l.products i) 0 1 (k a)
  | .stages n => solves c (l.products i) 0 n (k a)

/-- `Solver::run` from step number `i`, followed by the end of the program
(src/solver/Solver.cpp:497-551; src/launcher/launcher.cpp:80-88).  At most `fuel` steps; the theorems assume that `fuel` is at least the number of steps of the run. -/
def loop (P : ℕ) (c : Case) (l : Local) : ℕ → ℕ → ℚ → List Bool → Timing → Proc
  | fuel, i, t, f, a =>
    if keepGoing c.dt c.final t then
      match fuel with
      | 0 => .abort
      | fuel + 1 =>
        advance P c l i t (trueDt c.dt c.final t) a fun a =>
          updateProbes c (i + 1) (t + trueDt c.dt c.final t) f fun f =>
            .call .maxReduce (if l.unstable i then 1 else 0) fun _ =>
              loop P c l fuel (i + 1) (t + trueDt c.dt c.final t) f a
    else seq [(.finalize, 0)] .done

/-- `checkOptionsAreValid` (src/solver/Solver.cpp:143-154). -/
def Case.valid (c : Case) : Bool := decide (0 ≤ c.order ∧ 0 ≤ c.final ∧ 0 < c.cfl)

/-- The program of one of `P` ranks, from reading the case to the end
(src/launcher/launcher.cpp:63-90; src/driver/driver.cpp:1647-1662; src/solver/Solver.cpp:79-129, 483-533).
Only rank zero checks the options. -/
def program (P rank : ℕ) (c : Case) (l : Local) (fuel : ℕ) : Proc :=
  seq (buildCalls c l) <| seq (memberCalls c) <|
    if rank = 0 ∧ c.valid = false then .abort
    else seq (operatorCalls c) <| seq (fileCalls c) <|
      updateProbes c 0 0 (c.mors.map fun _ => false) fun f => loop P c l fuel 0 0 f ⟨0, -1⟩

end Dgtd.Coll
