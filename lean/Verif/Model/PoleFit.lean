/-
Model of src/components/SIBCPoleResidueFitting.cpp: rational fit of a surface impedance.

Arithmetic is that of a field; in the choice between fits `none` is not-a-number, whose comparisons are all false.  The least-squares
and eigenvalue solvers are the library's: the theorems are about the matrices that they are given.
-/
import Mathlib.Algebra.Order.Field.Basic
import Mathlib.Algebra.BigOperators.Group.Finset.Basic
import Mathlib.Analysis.SpecialFunctions.Pow.Real

namespace Dgtd.PoleFit

/-! ### Choice -/

variable {K : Type} [Field K] [LinearOrder K]

/-- `a < b` of doubles. (src/components/SIBCPoleResidueFitting.cpp:201, 249, 253) -/
def ltF (a b : Option K) : Bool :=
  match a, b with
  | some x, some y => decide (x < y)
  | _, _ => false

/-- src/components/SIBCPoleResidueFitting.h `FitResult`: order, error and stability; `data` stands for poles and residues. (lines 11-17) -/
structure Fit (K : Type) where
  n      : Nat
  err    : Option K
  stable : Bool
  data   : List K

/-- src/components/SIBCPoleResidueFitting.cpp:185-189: the stability flag from the real parts of the poles. -/
def isStable (re : List (Option K)) : Bool := !re.any fun r => ltF (some (1 / 1000000)) r

/-- src/components/SIBCPoleResidueFitting.cpp:191-203: the largest relative error. -/
def maxError (errs : List (Option K)) : Option K :=
  errs.foldl (fun m e => if ltF m e then e else m) (some 0)

/-- src/components/SIBCPoleResidueFitting.cpp:240-258: the loop over orders. -/
def loop (fit : Nat → Fit K) (tol : K) (res : Fit K) : List Nat → Fit K
  | [] => res
  | N :: Ns =>
    if (fit N).stable = false then loop fit tol res Ns
    else if ltF (fit N).err (some tol) then fit N
    else loop fit tol (if ltF (fit N).err res.err then fit N else res) Ns

/-- src/components/SIBCPoleResidueFitting.cpp:235-238. -/
def start : Fit K := ⟨0, some 1000000000, false, []⟩

/-- src/components/SIBCPoleResidueFitting.cpp:221-259 `findOptimalPoles`, with the fits of each order given. -/
def findOptimal (fit : Nat → Fit K) (maxPoles : Nat) (tol : K) : Fit K :=
  loop fit tol start ((List.range maxPoles).map (· + 1))

/-! ### Matrices -/

variable {F : Type} [Field F]

/-- src/components/SIBCPoleResidueFitting.cpp:100-117: one row of the system, weight `w`, impedance `z`, scaled frequency `s`; the
running products are powers. -/
def row (n : Nat) (w z s : F) (j : Nat) : F :=
  if j ≤ n then w * s ^ j else -w * z * s ^ (j - (n + 1) + 1)

/-- src/components/SIBCPoleResidueFitting.cpp:117. -/
def rhs (w z : F) : F := w * z

/-- src/components/SIBCPoleResidueFitting.cpp:141-150: `a_full` before the normalisation; `x` is the solution of the system. -/
def aFull (n : Nat) (x : Nat → F) (scale : F) (i : Nat) : F :=
  (if i = 0 then 1 else x (n + 1 + (i - 1))) / scale ^ i

/-- src/components/SIBCPoleResidueFitting.cpp:152-158: `coeffs_for_roots`. -/
def coeffs (n : Nat) (x : Nat → F) (scale : F) (i : Nat) : F :=
  aFull n x scale (n - 1 - i) / aFull n x scale n

/-- src/components/SIBCPoleResidueFitting.cpp:122-134 `extractRoots`: the matrix whose eigenvalues are taken. -/
def companion (n : Nat) (c : Nat → F) (i j : Nat) : F :=
  if j = n - 1 then - c (n - 1 - i) else if i = j + 1 then 1 else 0

/-! ### Target -/

/-- A layer: permittivity, permeability, conductivity, width. (src/components/Model.h:77-85) -/
structure Layer (K : Type) where
  eps   : K
  mu    : K
  sigma : K
  width : K

/-- src/components/SIBCPoleResidueFitting.cpp:38-41: what the target impedance is computed from; `none` if there are no layers
(`front` of an empty vector). -/
def targetInput (ls : List (Layer K)) : Option (Layer K) :=
  match ls with
  | [] => none
  | l :: ls' => some ⟨l.eps, l.mu, l.sigma, ((l :: ls').map Layer.width).sum⟩

/-- src/components/SIBCPoleResidueFitting.cpp:228-231: the sampled frequencies. -/
noncomputable def freq (f0 f1 : ℝ) (n : Nat) : Nat → ℝ
  | 0 => f0
  | i + 1 => freq f0 f1 n i * (f1 / f0) ^ ((1 : ℝ) / ((n : ℝ) - 1))

end Dgtd.PoleFit
