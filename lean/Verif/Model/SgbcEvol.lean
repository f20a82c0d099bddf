/-
Model of the explicit evolution operator with thin layers (src/evolution/GlobalEvolution.cpp, .h): checkpoint,
right-hand side with sub-solves, two-pass flux injection, scratch vector, and end-of-step advance.

Simplifications.  `std::map<GeomTag, std::vector<SGBCState>>` is the list of all states in iteration order, each
carrying its tag; the checkpoint is the parallel list.  `Norml2() >= thr` is compared in squares.  Copies of arrays
copy the whole function (entries past the array's end are never read).  One MPI rank's view: the values received
from neighbours are a parameter.  CPU branches only.
-/
import Verif.Model.SgbcSub
import Mathlib.Algebra.BigOperators.Group.List.Basic

namespace Dgtd.SgbcEvol

open Sgbc

/-- What a layer surface shows to the outside: a mirror condition, or the field at the layer's surface
(src/evolution/GlobalEvolution.cpp:889-890, 948-949). -/
inductive Face
  | PEC
  | PMC
  | SMA
  | slab
  deriving DecidableEq, Repr

/-- src/solver/SolverExtension.h:44-65 `SGBCState` (without the element pair, used only at construction). -/
structure St (K : Type) where
  tag : Int
  pair : NodePair
  rot : Fin 9 → K
  fields : Nat → K
  ghostOld : Fin 12 → K
  ghostNew : Fin 12 → K

/-- What the checkpoint of a state holds (src/evolution/GlobalEvolution.cpp:399-433). -/
structure Cp (K : Type) where
  fields : Nat → K
  ghostOld : Fin 12 → K

/-- The constant data of the wrapper of a tag: nodes per component, ghost nodes per side, recommended step,
surface conditions, and one step of the inner solver's time integrator acting on the inner solver's private state
`σ` (factorisation cache). (src/solver/SolverExtension.h:109-175, src/solver/SolverExtension.cpp:407-442) -/
structure Layer (σ K : Type) where
  n : Nat
  G : Nat
  sub : K
  left : Face
  right : Face
  step : σ → (Nat → K) → K → K → Option ((Nat → K) × σ)

/-- The mutable part of a wrapper: private solver state and the solver's fields. (src/solver/SolverExtension.h:157-175) -/
structure Wrapper (σ K : Type) where
  inner : σ
  all : Nat → K

variable {σ K : Type} [Field K] [LinearOrder K] [IsStrictOrderedRing K] [FloorRing K]

/-- src/solver/SolverExtension.cpp:407-442 `solve`. -/
def solve (L : Layer σ K) (w : Wrapper σ K) (t dt : K) : Option (Wrapper σ K) :=
  match solveStep t dt with
  | none => some w
  | some (t, d) => (L.step w.inner w.all t d).map fun r => ⟨r.2, r.1⟩

/-- What one task has to do: nothing, or sub-steps with an update of the ghost values before each.
(src/evolution/GlobalEvolution.cpp:493-545, 692-751) -/
structure Job (K : Type) where
  skip : Bool
  steps : List (SubStep K)
  upd : SubStep K → (Nat → K) → Option (Nat → K)

/-- One iteration of the sub-step loop (src/evolution/GlobalEvolution.cpp:513-517, 539-543, 719-722, 745-748). -/
def subStep1 (L : Layer σ K) (j : Job K) (w : Wrapper σ K) (s : SubStep K) : Option (Wrapper σ K) :=
  (j.upd s w.all).bind fun a => solve L { w with all := a } s.start s.len

/-- src/solver/SolverExtension.cpp:175-179 `loadState`. -/
def loadState (w : Wrapper σ K) (st : St K) : Wrapper σ K := { w with all := st.fields }

/-- src/solver/SolverExtension.cpp:181-185 `saveState`. -/
def saveState (w : Wrapper σ K) (st : St K) : St K := { st with fields := w.all }

/-- The body of the task loop: load, sub-steps, save (src/evolution/GlobalEvolution.cpp:512-518, 537-545, 718-723,
744-749). -/
def runTask (L : Layer σ K) (j : Job K) (w : Wrapper σ K) (st : St K) : Option (Wrapper σ K × St K) :=
  if j.skip then some (w, st)
  else (j.steps.foldlM (subStep1 L j) (loadState w st)).map fun w => (w, saveState w st)

/-- The serial loop over all states (src/evolution/GlobalEvolution.cpp:526-547, 728-751): one wrapper per tag. -/
def serial (Ls : Int → Layer σ K) (job : St K → Option (Job K)) :
    (Int → Wrapper σ K) → List (St K) → Option ((Int → Wrapper σ K) × List (St K))
  | ws, [] => some (ws, [])
  | ws, st :: r => do
    let j ← job st
    let (w, st) ← runTask (Ls st.tag) j (ws st.tag) st
    let (ws, r) ← serial Ls job (Function.update ws st.tag w) r
    some (ws, st :: r)

/-! ### the operator object -/

/-- Rows of a sparse matrix. (src/evolution/GlobalEvolution.cpp:908-920) -/
abbrev Rows (K : Type) := Nat → List (Nat × K)

/-- `sum += vals[j] * sv[cols[j]]` over a row. (src/evolution/GlobalEvolution.cpp:911-919) -/
def rowDot (row : List (Nat × K)) (v : Nat → K) : K := row.foldl (fun s e => s + e.2 * v e.1) 0

/-- The total-field source: node map, values per component and node at a time, operator
(src/evolution/GlobalEvolution.cpp:551-626). -/
structure Tfsf (K : Type) where
  ids : List Int
  val : K → Fin 6 → Nat → K
  rows : Rows K

/-- Constant data of the evolution object.  `nbrData` is what the face-neighbour exchange delivers.
(src/evolution/GlobalEvolution.h:33-100) -/
structure Sys (σ K : Type) where
  ndofs : Nat
  nbr : Nat
  layers : Int → Layer σ K
  globalRows : Rows K
  tfsf : Option (Tfsf K)
  sgbcRows : Option (Rows K)
  elem1 : List Nat
  elem2 : List Nat
  nbrData : (Nat → K) → Fin 6 → Nat → K

/-- `blockSize` (line 637). (src/evolution/GlobalEvolution.cpp) -/
def Sys.B (S : Sys σ K) : Nat := S.ndofs + S.nbr

/-- Mutable data of the evolution object; `cp = none` before the first commit, `scratch = none` while
`multWorkVec_` has no size. (src/evolution/GlobalEvolution.h:43-84) -/
structure Ev (σ K : Type) where
  states : List (St K)
  cp : Option (List (Cp K))
  base : K
  dt : K
  ws : Int → Wrapper σ K
  scratch : Option (Nat → K)

/-- Squared threshold, `sgbc_skip_threshold_ = tfsf_skip_threshold_ = 1e-8`. (src/evolution/GlobalEvolution.h:95, 100) -/
def thr2 : K := 1 / 10000000000000000

/-- Sum of squares of the first `m` entries. (src/evolution/GlobalEvolution.cpp:475-485, 676-686) -/
def normSq (m : Nat) (a : Nat → K) : K := (List.range m).foldl (fun s i => s + a i * a i) 0

/-- Squared norm of the outer fields at the nodes of a pair (lines 661-672; in `finalizeSGBCStep` 460-473 through
the component views). (src/evolution/GlobalEvolution.cpp) -/
def ifaceNormSq (ndofs : Nat) (inp : Nat → K) (pair : NodePair) : Option K := do
  let e ← read3 ndofs inp 0 pair.1
  let h ← read3 ndofs inp 3 pair.1
  let a := e 0 * e 0 + e 1 * e 1 + e 2 * e 2 + (h 0 * h 0 + h 1 * h 1 + h 2 * h 2)
  if pair.2 ≠ -1 then
    let e ← read3 ndofs inp 0 pair.2
    let h ← read3 ndofs inp 3 pair.2
    some (a + (e 0 * e 0 + e 1 * e 1 + e 2 * e 2 + (h 0 * h 0 + h 1 * h 1 + h 2 * h 2)))
  else some a

/-- Lines 698-702, 741-742: nothing to do for this state. (src/evolution/GlobalEvolution.cpp) -/
def isQuiet (S : Sys σ K) (inp : Nat → K) (st : St K) : Option Bool := do
  let q ← ifaceNormSq S.ndofs inp st.pair
  some (decide (normSq (6 * (S.layers st.tag).n) st.fields < thr2 ∧ q < thr2))

/-- Lines 475-485, 676-686: all states quiet. (src/evolution/GlobalEvolution.cpp) -/
def allQuiet (S : Sys σ K) (inp : Nat → K) : List (St K) → Option Bool
  | [] => some true
  | st :: r => do
    let q ← isQuiet S inp st
    if q then allQuiet S inp r else some false

/-- Lines 418-431: one state of the checkpoint; `prev` is the right half left by earlier commits. (src/evolution/GlobalEvolution.cpp) -/
def commit1 (S : Sys σ K) (inp : Nat → K) (st : St K) (prev : Fin 12 → K) : Option (Cp K) := do
  let g ← ghostValues S.ndofs inp st.rot st.pair prev
  some ⟨st.fields, g⟩

/-- Loop of lines 418-431. (src/evolution/GlobalEvolution.cpp) -/
def commitAll (S : Sys σ K) (inp : Nat → K) : List (St K) → List (Fin 12 → K) → Option (List (Cp K))
  | [], _ => some []
  | st :: r, prevs => do
    let c ← commit1 S inp st (prevs.headD 0)
    let cs ← commitAll S inp r prevs.tail
    some (c :: cs)

/-- src/evolution/GlobalEvolution.cpp:399-433 `commitSGBCCheckpoint`; the first call allocates zeroed entries. -/
def commit (S : Sys σ K) (base dt : K) (inp : Nat → K) (ev : Ev σ K) : Option (Ev σ K) := do
  let cs ← commitAll S inp ev.states ((ev.cp.getD []).map Cp.ghostOld)
  some { ev with base := base, dt := dt, cp := some cs }

/-- Lines 651-658: restore the fields of every state; `at` throws when nothing was committed. (src/evolution/GlobalEvolution.cpp) -/
def restore : List (St K) → List (Cp K) → Option (List (St K))
  | [], _ => some []
  | _ :: _, [] => none
  | st :: r, c :: cs => (restore r cs).map fun r => { st with fields := c.fields } :: r

/-- What a stage has to do for a state (lines 698-723, 728-751). (src/evolution/GlobalEvolution.cpp) -/
def multJob (S : Sys σ K) (base dts : K) (inp : Nat → K) (st : St K) : Option (Job K) := do
  let steps ← subSteps base dts (S.layers st.tag).sub
  let q ← isQuiet S inp st
  some ⟨q, steps, fun _ => updateFromGlobal (S.layers st.tag).n (S.layers st.tag).G S.ndofs inp st.pair st.rot⟩

/-- Part 1 of `Mult` (lines 644-754), serial branch: quiet flag and new object. (src/evolution/GlobalEvolution.cpp) -/
def subSolve (S : Sys σ K) (t : K) (inp : Nat → K) (ev : Ev σ K) : Option (Bool × Ev σ K) :=
  match S.sgbcRows with
  | none => some (false, ev)
  | some _ => do
    let sts ← restore ev.states (ev.cp.getD [])
    let q ← allQuiet S inp sts
    if q = false ∧ t - ev.base > 1 / 1000000000000 then
      let (ws, sts) ← serial S.layers (multJob S ev.base (t - ev.base) inp) ev.ws sts
      some (q, { ev with states := sts, ws := ws })
    else some (q, { ev with states := sts })

/-- Lines 789-800: the own fields, then the neighbours' values, block by block. (src/evolution/GlobalEvolution.cpp) -/
def assembleWrites (S : Sys σ K) (inp : Nat → K) : List (Int × K) :=
  (List.finRange 6).flatMap (fun c => (List.range S.ndofs).map fun (i : Nat) =>
    (((c.val * S.B + i : Nat) : Int), inp (c.val * S.ndofs + i))) ++
  (List.finRange 6).flatMap (fun c => (List.range S.nbr).map fun (i : Nat) =>
    (((c.val * S.B + S.ndofs + i : Nat) : Int), S.nbrData inp c i))

/-- `mfem::SparseMatrix::Mult`. (src/evolution/GlobalEvolution.cpp:811) -/
def mulRows (rows : Rows K) (v : Nat → K) : Nat → K := fun r => rowDot (rows r) v

/-- `multWorkVec_ = 0.0` (line 817) and the `memset`s of lines 621-624. (src/evolution/GlobalEvolution.cpp) -/
def zeroed (size : Nat) (w : Nat → K) : Nat → K := fun k => if k < size then 0 else w k

/-- Lines 605-611: scatter of the source values. (src/evolution/GlobalEvolution.cpp) -/
def scatterWrites (B : Nat) (T : Tfsf K) (t : K) : List (Int × K) :=
  (List.range T.ids.length).flatMap fun v =>
    sideWrites B 1 (fun _ => T.ids.getD v 0) (fun d => T.val t ⟨d.val, by omega⟩ v)
      (fun d => T.val t ⟨3 + d.val, by omega⟩ v)

/-- Lines 587-598: squared norm of the source values. (src/evolution/GlobalEvolution.cpp) -/
def sourceNormSq (T : Tfsf K) (t : K) : K :=
  (List.finRange 6).foldl (fun s c => s + normSq T.ids.length (T.val t c)) 0

/-- src/evolution/GlobalEvolution.cpp:551-626 `applyTFSFSourceToVector`; an unsized scratch is created zeroed. -/
def applyTfsf (S : Sys σ K) (t : K) (out : Nat → K) (scratch : Option (Nat → K)) :
    Option ((Nat → K) × Option (Nat → K)) :=
  match S.tfsf with
  | none => some (out, scratch)
  | some T =>
    let w := scratch.getD fun _ => 0
    if sourceNormSq T t < thr2 then some (out, some w)
    else (exec (6 * S.B) (scatterWrites S.B T t) w).map fun w =>
      (fun r => out r - mulRows T.rows w r, some (zeroed (6 * S.B) w))

/-- Lines 843-873 `fillBCSlot`. (src/evolution/GlobalEvolution.cpp) -/
def fillWrites (S : Sys σ K) (bdr : Face) (inp : Nat → K) (source target : Int) (st : St K) (idx : Int) :
    Option (List (Int × K)) :=
  match bdr with
  | .PEC => do
    let e ← read3 S.ndofs inp 0 source
    let h ← read3 S.ndofs inp 3 source
    some (sideWrites S.B 1 (fun _ => target) (fun d => -e d) h)
  | .PMC => do
    let e ← read3 S.ndofs inp 0 source
    let h ← read3 S.ndofs inp 3 source
    some (sideWrites S.B 1 (fun _ => target) e (fun d => -h d))
  | .SMA => do
    let e ← read3 S.ndofs inp 0 source
    let h ← read3 S.ndofs inp 3 source
    some (sideWrites S.B 1 (fun _ => target) e h)
  | .slab => do
    let e ← read3 (S.layers st.tag).n st.fields 0 idx
    let h ← read3 (S.layers st.tag).n st.fields 3 idx
    some (sideWrites S.B 1 (fun _ => target) (FaceRotation.toGlobal st.rot e) (FaceRotation.toGlobal st.rot h))

/-- Lines 876-881 `copyGlobalSlot`. (src/evolution/GlobalEvolution.cpp) -/
def copyWrites (S : Sys σ K) (inp : Nat → K) (dof slot : Int) : Option (List (Int × K)) := do
  let e ← read3 S.ndofs inp 0 dof
  let h ← read3 S.ndofs inp 3 dof
  some (sideWrites S.B 1 (fun _ => slot) e h)

/-- src/solver/SolverExtension.cpp:191-198 interface indices. -/
def leftIndex (L : Layer σ K) : Int := L.G
/-- The node of the right surface (`getRightInterfaceIndex`). (src/solver/SolverExtension.cpp:195-198) -/
def rightIndex (L : Layer σ K) : Int := ((L.n : Int) - 1) - L.G

/-- Pass 1 for a state (lines 892-902). (src/evolution/GlobalEvolution.cpp) -/
def pass1 (S : Sys σ K) (inp : Nat → K) (st : St K) : Option (List (Int × K)) := do
  let a ← copyWrites S inp st.pair.1 st.pair.1
  if st.pair.2 ≠ -1 then
    let b ← fillWrites S (S.layers st.tag).left inp st.pair.1 st.pair.2 st (leftIndex (S.layers st.tag))
    some (a ++ b)
  else some a

/-- Pass 2 for a state (lines 951-960). (src/evolution/GlobalEvolution.cpp) -/
def pass2 (S : Sys σ K) (inp : Nat → K) (st : St K) : Option (List (Int × K)) :=
  if st.pair.2 = -1 then some []
  else do
    let a ← fillWrites S (S.layers st.tag).right inp st.pair.2 st.pair.1 st (rightIndex (S.layers st.tag))
    let b ← copyWrites S inp st.pair.2 st.pair.2
    some (a ++ b)

/-- Clearing after pass 1 (lines 924-937). (src/evolution/GlobalEvolution.cpp) -/
def clear1 (S : Sys σ K) (st : St K) : List (Int × K) :=
  sideWrites S.B 1 (fun _ => st.pair.1) 0 0 ++
    if st.pair.2 ≠ -1 then sideWrites S.B 1 (fun _ => st.pair.2) 0 0 else []

/-- Clearing after pass 2 (lines 982-994). (src/evolution/GlobalEvolution.cpp) -/
def clear2 (S : Sys σ K) (st : St K) : List (Int × K) :=
  if st.pair.2 = -1 then []
  else sideWrites S.B 1 (fun _ => st.pair.1) 0 0 ++ sideWrites S.B 1 (fun _ => st.pair.2) 0 0

/-- All the writes of a pass, in the order of the states. (src/evolution/GlobalEvolution.cpp:883-903, 942-961) -/
def passWrites (f : St K → Option (List (Int × K))) : List (St K) → Option (List (Int × K))
  | [] => some []
  | st :: r => do
    let a ← f st
    let b ← passWrites f r
    some (a ++ b)

/-- Lines 908-920, 966-978: `op[row] += sum` for every component and every node of the list. (src/evolution/GlobalEvolution.cpp) -/
def addRows (ndofs : Nat) (rows : Rows K) (dofs : List Nat) (v : Nat → K) (out : Nat → K) : Nat → K :=
  ((List.range 6).flatMap fun comp => dofs.map fun dof => comp * ndofs + dof).foldl
    (fun o r => Function.update o r (o r + rowDot (rows r) v)) out

/-- Part 6 of `Mult` (lines 831-1001): the two passes. (src/evolution/GlobalEvolution.cpp) -/
def inject (S : Sys σ K) (rows : Rows K) (inp : Nat → K) (sts : List (St K)) (out w : Nat → K) :
    Option ((Nat → K) × (Nat → K)) := do
  let w1 ← passWrites (pass1 S inp) sts
  let w ← exec (6 * S.B) w1 w
  let out := addRows S.ndofs rows S.elem1 w out
  let w ← exec (6 * S.B) (sts.flatMap (clear1 S)) w
  let w2 ← passWrites (pass2 S inp) sts
  let w ← exec (6 * S.B) w2 w
  let out := addRows S.ndofs rows S.elem2 w out
  let w ← exec (6 * S.B) (sts.flatMap (clear2 S)) w
  some (out, w)

/-- Parts 3 to 6 of `Mult` (lines 779-1001) for given states and quiet flag; `junk` is what a scratch vector
resized in line 781 contains. (src/evolution/GlobalEvolution.cpp) -/
def rhs (S : Sys σ K) (t : K) (inp junk : Nat → K) (quiet : Bool) (sts : List (St K))
    (scratch : Option (Nat → K)) : Option ((Nat → K) × Option (Nat → K)) := do
  let w ← exec (6 * S.B) (assembleWrites S inp) (scratch.getD junk)
  let out := mulRows S.globalRows w
  let (out, sc) ← applyTfsf S t out (some (zeroed (6 * S.B) w))
  match S.sgbcRows with
  | none => some (out, sc)
  | some rows =>
    if quiet then some (out, sc)
    else do
      let (out, w) ← inject S rows inp sts out (sc.getD junk)
      some (out, some w)

/-- src/evolution/GlobalEvolution.cpp:628-1088 `Mult` at time `t`. -/
def mult (S : Sys σ K) (t : K) (inp junk : Nat → K) (ev : Ev σ K) : Option ((Nat → K) × Ev σ K) := do
  let (quiet, ev) ← subSolve S t inp ev
  let (out, sc) ← rhs S t inp junk quiet ev.states ev.scratch
  some (out, { ev with scratch := sc })

/-- src/evolution/GlobalEvolution.cpp:1109-1135: what the operator of `ImplicitSolve` is applied to; `junk` is what
`implicit_inNew_` held before. -/
def implicitArg (S : Sys σ K) (x junk : Nat → K) : Option (Nat → K) :=
  if S.nbr = 0 then some x else exec (6 * S.B) (assembleWrites S x) junk

/-- src/evolution/GlobalEvolution.cpp:1109-1145, the right-hand side `A x + source` of `ImplicitSolve` at time `t`. -/
def implicitRhs (S : Sys σ K) (t : K) (x junk : Nat → K) (ev : Ev σ K) : Option ((Nat → K) × Ev σ K) := do
  let w ← implicitArg S x junk
  let out := mulRows S.globalRows w
  match S.tfsf with
  | none => some (out, ev)
  | some _ =>
    let (src, sc) ← applyTfsf S t (fun _ => 0) ev.scratch
    some (fun r => out r + src r, { ev with scratch := sc })

/-- Lines 439-456: restore, and the two ends of the interpolation. (src/evolution/GlobalEvolution.cpp) -/
def finalRestore (S : Sys σ K) (inp : Nat → K) : List (St K) → List (Cp K) → Option (List (St K))
  | [], _ => some []
  | _ :: _, [] => none
  | st :: r, c :: cs => do
    let g ← ghostValues S.ndofs inp st.rot st.pair st.ghostNew
    let r ← finalRestore S inp r cs
    some ({ st with fields := c.fields, ghostOld := c.ghostOld, ghostNew := g } :: r)

/-- What the end of the step has to do for a state (lines 531-545). (src/evolution/GlobalEvolution.cpp) -/
def finalJob (S : Sys σ K) (base dt : K) (st : St K) : Option (Job K) := do
  let steps ← subSteps base dt (S.layers st.tag).sub
  some ⟨false, steps, fun s =>
    updateInterpolated (S.layers st.tag).n (S.layers st.tag).G s.alpha st.pair st.ghostOld st.ghostNew⟩

/-- src/evolution/GlobalEvolution.cpp:435-549 `finalizeSGBCStep`, serial branch; `inp` are the fields after the
global step. -/
def finalize (S : Sys σ K) (inp : Nat → K) (ev : Ev σ K) : Option (Ev σ K) := do
  let sts ← finalRestore S inp ev.states (ev.cp.getD [])
  let q ← allQuiet S inp sts
  if q then some { ev with states := sts }
  else do
    let (ws, sts) ← serial S.layers (finalJob S ev.base ev.dt) ev.ws sts
    some { ev with states := sts, ws := ws }

/-! ### the parallel task loop -/

/-- The task loop with OpenMP dynamic scheduling (lines 493-519, 692-724): per-thread wrappers
(`sgbc_thread_pool_`; thread 0 owns the originals), shared states, which tasks were handed out, and what each
thread is doing. (src/evolution/GlobalEvolution.cpp) -/
structure Par (σ K : Type) where
  ws : Nat → Int → Wrapper σ K
  sts : List (St K)
  taken : Nat → Bool
  run : Nat → Option (Nat × List (SubStep K))

/-- One visible action of some thread.  Handing out a task loads the state; each sub-step acts on the thread's
own wrapper; saving writes the task's own state. (src/evolution/GlobalEvolution.cpp:493-519, 692-724) -/
inductive ParStep (Ls : Int → Layer σ K) (job : St K → Option (Job K)) (threads : Nat) :
    Par σ K → Par σ K → Prop
  | skip {p : Par σ K} {t i : Nat} {st : St K} {j : Job K} (ht : t < threads) (idle : p.run t = none)
      (free : p.taken i = false) (hst : p.sts[i]? = some st) (hj : job st = some j) (hs : j.skip = true) :
      ParStep Ls job threads p { p with taken := Function.update p.taken i true }
  | take {p : Par σ K} {t i : Nat} {st : St K} {j : Job K} (ht : t < threads) (idle : p.run t = none)
      (free : p.taken i = false) (hst : p.sts[i]? = some st) (hj : job st = some j) (hs : j.skip = false) :
      ParStep Ls job threads p
        { p with
          taken := Function.update p.taken i true
          run := Function.update p.run t (some (i, j.steps))
          ws := Function.update p.ws t (Function.update (p.ws t) st.tag (loadState (p.ws t st.tag) st)) }
  | sub {p : Par σ K} {t i : Nat} {st : St K} {j : Job K} {s : SubStep K} {r : List (SubStep K)}
      {w : Wrapper σ K} (ht : t < threads) (busy : p.run t = some (i, s :: r)) (hst : p.sts[i]? = some st)
      (hj : job st = some j) (hw : subStep1 (Ls st.tag) j (p.ws t st.tag) s = some w) :
      ParStep Ls job threads p
        { p with
          run := Function.update p.run t (some (i, r))
          ws := Function.update p.ws t (Function.update (p.ws t) st.tag w) }
  | save {p : Par σ K} {t i : Nat} {st : St K} (ht : t < threads) (busy : p.run t = some (i, []))
      (hst : p.sts[i]? = some st) :
      ParStep Ls job threads p
        { p with
          run := Function.update p.run t none
          sts := p.sts.set i (saveState (p.ws t st.tag) st) }

end Dgtd.SgbcEvol
