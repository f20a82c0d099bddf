/-
Model of the spectral tools: the system matrix of an element and the check of the option `spectral`
(src/solver/Solver.cpp:554-737, src/evolution/MaxwellEvolutionMethods.cpp:35-55), and the estimator of element matrices
(src/components/EigenvalueEstimator.cpp, src/components/OptimizationManager.cpp).

Eigenvalues are computed by Eigen and are inputs.  A matrix of the six components is a family of blocks, addressed by the
block numbers the code multiplies with the number of degrees of freedom.
-/
import Verif.Model.OpMaxwell
import Verif.Model.TimeStep
import Mathlib.Data.Complex.Basic
import Mathlib.Analysis.Real.Sqrt

namespace Dgtd.Spectral

open Dgtd.Op

section assembly
variable {ι K : Type} [Fintype ι] [DecidableEq ι] [Field K] [LinearOrder K]

/-- A square matrix of blocks: block row, block column. (src/evolution/MaxwellEvolutionMethods.cpp:35-55) -/
abbrev Big (ι K : Type) := Nat → Nat → Matrix ι ι K

/-- Product with the six components; component `(f, d)` has number `3 f + d` (src/evolution/Fields.h). -/
def Big.mul (A : Big ι K) (u : State ι K) : State ι K := fun f d =>
  (fields.flatMap fun g => dirs.map fun e => (A (3 * f.idx + d.val) (3 * g.idx + e.val)).mulVec (u g e)).sum

/-- src/evolution/MaxwellEvolutionMethods.cpp:35-41 `calcOffsetCoeff`; `d.2` is absent when one direction is given. -/
def calcOffsetCoeff (f : FieldT × FieldT) (d : Dir × Option Dir) : Nat × Nat :=
  let r := 3 * f.1.idx + d.1.val
  (r, match d.2 with | some e => 3 * f.2.idx + e.val | none => r)

/-- src/evolution/MaxwellEvolutionMethods.cpp:43-55 `allocateDenseInEigen` (zero entries, which are skipped, add nothing). -/
def allocate (B : Matrix ι ι K) (f : FieldT × FieldT) (d : Dir × Option Dir) (sign : K) (A : Big ι K) : Big ι K :=
  fun r c => if r = (calcOffsetCoeff f d).1 ∧ c = (calcOffsetCoeff f d).2 then A r c + sign • B else A r c

/-- Arguments of one call of `allocateDenseInEigen`. (src/evolution/MaxwellEvolutionMethods.cpp:35-55) -/
structure Call (ι K : Type) where
  mat : Matrix ι ι K
  f : FieldT × FieldT
  d : Dir × Option Dir
  sign : K

/-- src/solver/Solver.cpp:600-621: the calls for one direction, in program order. -/
def callsFor (P : Prob ι K) (x : Dir) : List (Call ι K) :=
  let y := x + 1
  let z := x + 2
  [⟨P.Minv .H * derivativeSub P y, (.H, .E), (x, some z), -1⟩,
   ⟨P.Minv .H * derivativeSub P z, (.H, .E), (x, some y), 1⟩,
   ⟨P.Minv .E * derivativeSub P y, (.E, .H), (x, some z), 1⟩,
   ⟨P.Minv .E * derivativeSub P z, (.E, .H), (x, some y), -1⟩,
   ⟨P.Minv .H * oneNormalSub P .E y, (.H, .E), (x, some z), 1⟩,
   ⟨P.Minv .H * oneNormalSub P .E z, (.H, .E), (x, some y), -1⟩,
   ⟨P.Minv .E * oneNormalSub P .H y, (.E, .H), (x, some z), -1⟩,
   ⟨P.Minv .E * oneNormalSub P .H z, (.E, .H), (x, some y), 1⟩] ++
  if P.alpha > 0 then
    [⟨P.Minv .H * zeroNormalSub P .H, (.H, .H), (x, none), -1⟩,
     ⟨P.Minv .E * zeroNormalSub P .E, (.E, .E), (x, none), -1⟩,
     ⟨P.Minv .H * twoNormalSub P .H 0 x, (.H, .H), (0, some x), 1⟩,
     ⟨P.Minv .H * twoNormalSub P .H 1 x, (.H, .H), (1, some x), 1⟩,
     ⟨P.Minv .H * twoNormalSub P .H 2 x, (.H, .H), (2, some x), 1⟩,
     ⟨P.Minv .E * twoNormalSub P .E 0 x, (.E, .E), (0, some x), 1⟩,
     ⟨P.Minv .E * twoNormalSub P .E 1 x, (.E, .E), (1, some x), 1⟩,
     ⟨P.Minv .E * twoNormalSub P .E 2 x, (.E, .E), (2, some x), 1⟩]
  else []

/-- src/solver/Solver.cpp:583-625 `assembleSubmeshedSpectralOperatorMatrix`; `P` is the problem of the sub-mesh. -/
def spectralMatrix (P : Prob ι K) : Big ι K :=
  (dirs.flatMap (callsFor P)).foldl (fun A c => allocate c.mat c.f c.d c.sign A) fun _ _ => 0

/-- `mat_.block(getOffset(fr, dr), getOffset(fc, dc), n, n) += B` (src/components/EigenvalueEstimator.cpp:6-34 for the
offsets). -/
def addBlock (B : Matrix ι ι K) (fr : FieldT) (dr : Dir) (fc : FieldT) (dc : Dir) (A : Big ι K) : Big ι K :=
  fun r c => if r = 3 * fr.idx + dr.val ∧ c = 3 * fc.idx + dc.val then A r c + B else A r c

/-- src/components/EigenvalueEstimator.cpp:63-76; the loop runs over `X` and `Y`. -/
def estPenalty (P : Prob ι K) (f : FieldT) (A : Big ι K) : Big ι K :=
  ([0, 1] : List Dir).foldl (fun A d =>
    let A := addBlock (P.Minv f * zeroNormalSub P f) f d f d A
    let A := addBlock (-(P.Minv f * twoNormalSub P (altField f) d 0)) f 0 f d A
    let A := addBlock (-(P.Minv f * twoNormalSub P (altField f) d 1)) f 1 f d A
    addBlock (-(P.Minv f * twoNormalSub P (altField f) d 2)) f 2 f d A) A

/-- src/components/EigenvalueEstimator.cpp:78-93. -/
def estCurl (P : Prob ι K) (f : FieldT) (A : Big ι K) : Big ι K :=
  let invM : Matrix ι ι K := match f with | .H => -P.Minv .H | .E => P.Minv .E
  dirs.foldl (fun A x =>
    let y := x + 1
    let z := x + 2
    let A := addBlock (-(invM * derivativeSub P z)) f x (altField f) y A
    let A := addBlock (-(invM * oneNormalSub P (altField f) z)) f x (altField f) y A
    let A := addBlock (invM * derivativeSub P y) f x (altField f) z A
    addBlock (invM * oneNormalSub P (altField f) y) f x (altField f) z A) A

/-- src/components/EigenvalueEstimator.cpp:36-95, the constructor; `getElementMatrix` returns it. -/
def estMatrix (P : Prob ι K) : Big ι K :=
  fields.foldl (fun A f => estCurl P f (estPenalty P f A)) fun _ _ => 0

end assembly

noncomputable section modulus

/-- `sqrt(pow(z.real(), 2.0) + pow(z.imag(), 2.0))`. (src/solver/Solver.cpp:631) -/
def modulus (z : ℂ) : ℝ := Real.sqrt (z.re ^ 2 + z.im ^ 2)

open Classical in
/-- src/components/OptimizationManager.cpp:30-39 `calcHighestModulus`. -/
def calcHighestModulus (evs : List ℂ) : ℂ :=
  evs.foldl (fun res z => if modulus res < modulus z then z else res) 0

open Classical in
/-- src/solver/Solver.cpp:627-637 `findMaxEigenvalueModulus`. -/
def findMaxEigenvalueModulus (evs : List ℂ) : ℝ :=
  evs.foldl (fun res z => if modulus z ≤ 1 ∧ res ≤ modulus z then modulus z else res) 0

end modulus

noncomputable section check

open Dgtd.Config (Err)

/-- `odeSolver_->Step` with an evolution operator: a new vector for a vector and a time step. (src/solver/Solver.cpp:677-705) -/
abbrev Stepper := (List ℝ → List ℝ) → List ℝ → ℝ → List ℝ

open Classical in
/-- src/solver/Solver.cpp:694-704: every entry is compared with the entry before the step. -/
def compare (re im re' im' : List ℝ) : Except Err Unit :=
  if ((re.zip im).zip (re'.zip im')).any fun q =>
      Real.sqrt (q.1.1 ^ 2 + q.1.2 ^ 2) ≠ 0 ∧ Real.sqrt (q.2.1 ^ 2 + q.2.2 ^ 2) / Real.sqrt (q.1.1 ^ 2 + q.1.2 ^ 2) > 1
  then .error .throw else .ok ()

/-- src/solver/Solver.cpp:677-705 `evaluateStabilityByEigenvalueEvolutionFunction`; `ode` is the pointer `odeSolver_`, `L`
the evolution operator of the element. -/
def evaluateStability (ode : Option Stepper) (dt : ℝ) (L : List ℝ → List ℝ) (evs : List ℂ) : Except Err Unit :=
  match ode with
  | none => .error .ub
  | some step => compare (evs.map Complex.re) (evs.map Complex.im) (step L (evs.map Complex.re) dt) (step L (evs.map Complex.im) dt)

/-- MFEM's element types (src/solver/Solver.cpp:554-581, 639-675 distinguish the first five). -/
inductive Shape
  | segment | triangle | quadrilateral | tetrahedron | hexahedron | wedge | pyramid
  deriving DecidableEq

/-- src/solver/Solver.cpp:641-674 `reassembleSpectralBdrForSubmesh`: the attributes given to the boundary elements of the
element; for segments they are the added boundary points. -/
def bdrAttributes (s : Shape) (nbe : Nat) : Except Err (List Nat) :=
  match s with
  | .segment => .ok ((List.range 2).map (· + 1))
  | .triangle | .quadrilateral | .tetrahedron | .hexahedron => .ok ((List.range nbe).map (· + 1))
  | _ => .error .throw

/-- src/solver/Solver.cpp:554-581 `assignAttToBdrByDimForSpectral`: the attributes that are absorbing. -/
def absorbing (s : Shape) : Except Err (List Nat) :=
  match s with
  | .segment => .ok [1, 2]
  | .triangle => .ok [1, 2, 3]
  | .quadrilateral => .ok [1, 2, 3, 4]
  | .tetrahedron => .ok [1, 2, 3, 4]
  | .hexahedron => .ok [1, 2, 3, 4, 5, 6]
  | _ => .error .throw

/-- Number of faces of an element. (src/solver/Solver.cpp:554-581) -/
def Shape.faces : Shape → Nat
  | .segment => 2
  | .triangle => 3
  | .quadrilateral => 4
  | .tetrahedron => 4
  | .hexahedron => 6
  | .wedge => 5
  | .pyramid => 5

/-- An element of the rank: its type, the eigenvalues of its matrix and its evolution operator. (src/solver/Solver.cpp:707-737) -/
structure Elem where
  shape : Shape
  evs : List ℂ
  L : List ℝ → List ℝ

/-- src/solver/Solver.cpp:707-737 `performSpectralAnalysis`. -/
def performSpectralAnalysis (ode : Option Stepper) (dt : ℝ) (elems : List Elem) : Except Err Unit :=
  elems.forM fun e => do
    let _ ← bdrAttributes e.shape e.shape.faces
    let _ ← absorbing e.shape
    evaluateStability ode dt e.L e.evs

open Classical in
/-- src/solver/Solver.cpp:79-149, the part of the constructor that looks at the options (as in `TimeStep.construct`), with
lines 103-105; `odeSolver_` is a null pointer until line 124. -/
def construct (estimate : TimeStep.Options → Except Err ℝ) (spectral : Bool) (elems : List Elem)
    (o : TimeStep.Options) (rank : Nat) : Except Err (ℝ × Nat) := do
  if rank = 0 then TimeStep.checkOptions o
  if spectral then performSpectralAnalysis none o.timeStep elems
  let dt ← if o.timeStep = 0 then estimate o else pure o.timeStep
  let ode ← TimeStep.assignOde o.odeType
  pure (dt, ode)

end check

end Dgtd.Spectral
