/-
Model of the sub-stepping of a thin layer: ghost values and sub-step arithmetic
(src/solver/SolverExtension.cpp, src/evolution/GlobalEvolution.cpp).

The state vector of the inner one-dimensional solver is a flat array with `6 * n` entries, `n` per component.
`int` index arithmetic is on `Int`; leaving the array is undefined behaviour (`none`).
-/
import Verif.Model.Writes
import Verif.Model.FaceRotation
import Verif.Model.SgbcMesh
import Mathlib.Algebra.Order.Floor.Semiring
import Mathlib.Algebra.Order.Floor.Ring
import Mathlib.Data.Rat.Floor

namespace Dgtd.Sgbc

variable {K : Type}

/-- A pair of global nodes; the second is -1 on an exterior face (src/solver/SolverExtension.h:18). -/
abbrev NodePair := Int × Int

/-- One of the loop nests over `d` and `dof` of src/solver/SolverExtension.cpp (222-229, 239-246, 270-277,
287-294, 309-318, 320-329): `e_block[idx dof] = e[d]; h_block[idx dof] = h[d]`. -/
def sideWrites (n G : Nat) (idx : Nat → Int) (e h : Fin 3 → K) : List (Int × K) :=
  [(0 : Fin 3), 1, 2].flatMap fun d => (List.range G).flatMap fun dof =>
    [(((d.val * n : Nat) : Int) + idx dof, e d), ((((3 + d.val) * n : Nat) : Int) + idx dof, h d)]

/-- Left loop index `dof`, right loop index `right_dof_offset - dof` (lines 207, 257, 303). (src/solver/SolverExtension.cpp:200-330) -/
def leftIdx (dof : Nat) : Int := (dof : Int)
/-- Right loop index. (src/solver/SolverExtension.cpp:207, 257, 303) -/
def rightIdx (n dof : Nat) : Int := ((n : Int) - 1) - (dof : Int)

/-- src/solver/SolverExtension.cpp:298-331 `updateFieldsWithInterpolatedGhost`; ghost arrays hold
`[Ex,Ey,Ez,Hx,Hy,Hz]` left then right. -/
def updateInterpolated [Ring K] (n G : Nat) (alpha : K) (pair : NodePair) (old new : Fin 12 → K)
    (all : Nat → K) : Option (Nat → K) :=
  let beta := 1 - alpha
  let ev (d : Fin 3) : K := beta * old ⟨d.val, by omega⟩ + alpha * new ⟨d.val, by omega⟩
  let hv (d : Fin 3) : K := beta * old ⟨3 + d.val, by omega⟩ + alpha * new ⟨3 + d.val, by omega⟩
  let ev2 (d : Fin 3) : K := beta * old ⟨6 + d.val, by omega⟩ + alpha * new ⟨6 + d.val, by omega⟩
  let hv2 (d : Fin 3) : K := beta * old ⟨6 + 3 + d.val, by omega⟩ + alpha * new ⟨6 + 3 + d.val, by omega⟩
  (exec (6 * n) (sideWrites n G leftIdx ev hv) all).bind fun all =>
  if pair.2 ≠ -1 then exec (6 * n) (sideWrites n G (rightIdx n) ev2 hv2) all else some all

/-- Reading three components `in[(off + d) * ndofs + node]`. (src/solver/SolverExtension.cpp:200-296) -/
def read3 (ndofs : Nat) (inp : Nat → K) (off : Nat) (node : Int) : Option (Fin 3 → K) := do
  let a ← rd1 (6 * ndofs) inp ((((off + 0) * ndofs : Nat) : Int) + node)
  let b ← rd1 (6 * ndofs) inp ((((off + 1) * ndofs : Nat) : Int) + node)
  let c ← rd1 (6 * ndofs) inp ((((off + 2) * ndofs : Nat) : Int) + node)
  some ![a, b, c]

/-- src/solver/SolverExtension.cpp:250-296 `updateFieldsWithGlobalVector` (and, reading the same values through
the component views of `Fields`, 200-248 `updateFieldsWithGlobal`). -/
def updateFromGlobal [Add K] [Mul K] (n G ndofs : Nat) (inp : Nat → K) (pair : NodePair) (R : Fin 9 → K)
    (all : Nat → K) : Option (Nat → K) := do
  let eg ← read3 ndofs inp 0 pair.1
  let hg ← read3 ndofs inp 3 pair.1
  let all ← exec (6 * n) (sideWrites n G leftIdx (FaceRotation.toLocal R eg) (FaceRotation.toLocal R hg)) all
  if pair.2 ≠ -1 then
    let eg ← read3 ndofs inp 0 pair.2
    let hg ← read3 ndofs inp 3 pair.2
    exec (6 * n) (sideWrites n G (rightIdx n) (FaceRotation.toLocal R eg) (FaceRotation.toLocal R hg)) all
  else some all

/-- src/evolution/GlobalEvolution.cpp:381-395 `rotateGlobalFieldsToLocal`: six values `[E local, H local]`. -/
def rotateToLocal [Add K] [Mul K] (ndofs : Nat) (inp : Nat → K) (R : Fin 9 → K) (node : Int) :
    Option (Fin 6 → K) := do
  let eg ← read3 ndofs inp 0 node
  let hg ← read3 ndofs inp 3 node
  let e := FaceRotation.toLocal R eg
  let h := FaceRotation.toLocal R hg
  some ![e 0, e 1, e 2, h 0, h 1, h 2]

/-- src/evolution/GlobalEvolution.cpp:427-430 and 451-454: the twelve ghost values of a state; the right half
keeps its previous contents on an exterior face. -/
def ghostValues [Add K] [Mul K] (ndofs : Nat) (inp : Nat → K) (R : Fin 9 → K) (pair : NodePair)
    (prev : Fin 12 → K) : Option (Fin 12 → K) := do
  let l ← rotateToLocal ndofs inp R pair.1
  if pair.2 ≠ -1 then
    let r ← rotateToLocal ndofs inp R pair.2
    some ![l 0, l 1, l 2, l 3, l 4, l 5, r 0, r 1, r 2, r 3, r 4, r 5]
  else
    some ![l 0, l 1, l 2, l 3, l 4, l 5, prev 6, prev 7, prev 8, prev 9, prev 10, prev 11]

section Steps
variable [Field K] [LinearOrder K] [IsStrictOrderedRing K] [FloorRing K]

/-- src/evolution/GlobalEvolution.cpp:507-509, 532-534, 713-715, 734-736: the number of sub-steps.  The cast of
`std::ceil` to a 32-bit `int` is undefined when it does not fit. -/
def nSteps (sub dt : K) : Option Nat :=
  if 0 < sub ∧ sub < dt then
    (if ⌈dt / sub⌉ < 2 ^ 31 then some ⌈dt / sub⌉.toNat else none)
  else some 1

/-- One sub-step: interpolation fraction, start time and length. (src/evolution/GlobalEvolution.cpp:500-545, 708-751) -/
structure SubStep (K : Type) where
  alpha : K
  start : K
  len : K
  deriving DecidableEq, Repr

/-- src/evolution/GlobalEvolution.cpp:506-517, 531-543: the sub-steps of one global step. -/
def subSteps (base dt sub : K) : Option (List (SubStep K)) := do
  let n ← nSteps sub dt
  let actual := dt / n
  some ((List.range n).map fun step =>
    { alpha := ((step + 1 : Nat) : K) / n, start := base + (step : K) * actual, len := actual })

/-- src/solver/SolverExtension.cpp:407-442 `solve` with src/solver/Solver.cpp:537: `none` when it returns
without advancing, otherwise the start time and step handed to the time integrator,
`truedt = min(dt_, final_time - time_)`. -/
def solveStep (t dt : K) : Option (K × K) :=
  if |dt| < 1 / 1000000000 then none else some (t, min dt ((t + dt) - t))

/-- The time by which one `solve` call advances the inner solver. (src/solver/SolverExtension.cpp:407-442) -/
def advance1 (s : SubStep K) : K :=
  match solveStep s.start s.len with
  | none => 0
  | some (_, d) => d

/-- The time by which a sequence of `solve` calls advances the inner solver. (src/solver/SolverExtension.cpp:407-442) -/
def advanced (ss : List (SubStep K)) : K := ss.foldl (fun acc s => acc + advance1 s) 0

end Steps

end Dgtd.Sgbc

namespace Dgtd.Sgbc

noncomputable section

/-- The material data the time-step recommendation reads. (src/solver/SolverExtension.cpp:519-543) -/
structure Mat where
  eps : ℝ
  mu : ℝ

/-- src/solver/SolverExtension.cpp:521-537, one layer; `c` is `speedOfLight_SI`. -/
def layerDt (c : ℝ) (l : Layer ℝ Mat) : ℝ :=
  let dx := l.width / l.segs
  let crossing := (dx * Real.sqrt (l.material.eps * l.material.mu)) / c
  let dt := crossing * 0.5
  if l.nSkin > 3 then dt * min (l.nSkin * l.nSkin) 50 else dt

/-- src/solver/SolverExtension.cpp:519-543 `recommended_dt_`; `big` is `numeric_limits<double>::max()`. -/
def recommendedDt (c big : ℝ) (ls : List (Layer ℝ Mat)) : ℝ :=
  (ls.foldl (fun r l => min r (layerDt c l)) big) * c

end

end Dgtd.Sgbc
