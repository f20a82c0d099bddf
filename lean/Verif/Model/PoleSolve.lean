/-
Model of src/components/SIBCPoleResidueFitting.cpp: the surface impedance of a layer, and the whole fit of one order.

Numbers are complex and real; the answers of the library (Eigen's least squares and eigenvalues) are given, with what it promises about them.
-/
import Verif.Model.PoleFit
import Mathlib.Analysis.RCLike.Sqrt
import Mathlib.Analysis.Complex.Trigonometric
import Mathlib.LinearAlgebra.Matrix.Charpoly.Basic

namespace Dgtd.PoleFit
open Complex Finset

/-! ### the impedance of a layer -/

/-- src/math/PhysicalConstants.h:12 `vacuumPermittivity_SI`. -/
noncomputable def eps0 : ℝ := 8.8541878188e-12

/-- src/math/PhysicalConstants.h:14 `vacuumPermeability_SI`. -/
noncomputable def mu0 : ℝ := 4 * Real.pi * 1e-7

/-- src/components/SIBCPoleResidueFitting.cpp:44: angular frequency. -/
noncomputable def angular (f : ℝ) : ℝ := 2 * Real.pi * f

/-- src/components/SIBCPoleResidueFitting.cpp:46. -/
noncomputable def epsC (l : Layer ℝ) (f : ℝ) : ℂ := ((eps0 * l.eps : ℝ) : ℂ) - I * ((l.sigma / angular f : ℝ) : ℂ)

/-- src/components/SIBCPoleResidueFitting.cpp:47. -/
noncomputable def muC (l : Layer ℝ) : ℂ := ((mu0 * l.mu : ℝ) : ℂ)

/-- src/components/SIBCPoleResidueFitting.cpp:50. -/
noncomputable def gammaC (l : Layer ℝ) (f : ℝ) : ℂ := I * (angular f : ℂ) * Complex.sqrt (muC l * epsC l f)

/-- src/components/SIBCPoleResidueFitting.cpp:28-56 `generatePhysicsTarget`: the impedance at one frequency. -/
noncomputable def target (l : Layer ℝ) (f : ℝ) : ℂ := Complex.sqrt (muC l / epsC l f) / Complex.tanh (gammaC l f * (l.width : ℂ))

/-! ### one fit -/

variable {m : Nat}

/-- src/components/SIBCPoleResidueFitting.cpp:64-65: the complex frequency. -/
noncomputable def sval (f : ℝ) : ℂ := I * ((2 * Real.pi * f : ℝ) : ℂ)

/-- src/components/SIBCPoleResidueFitting.cpp:62-67: the largest modulus of the complex frequencies. -/
noncomputable def scaleOf (f : Fin m → ℝ) : ℝ := (List.finRange m).foldl (fun a k => if a < ‖sval (f k)‖ then ‖sval (f k)‖ else a) 0

/-- src/components/SIBCPoleResidueFitting.cpp:72-86 `calculate_weights` (the first and last entry of an empty list, undefined in the code, count as
zero). -/
noncomputable def weight (Z : Fin m → ℂ) (k : Fin m) : ℝ :=
  if ‖(List.ofFn Z).headD 0‖ < ‖(List.ofFn Z).getLastD 0‖ then 1 / (‖Z k‖ + 1e-15) else 1

/-- src/components/SIBCPoleResidueFitting.cpp:88-120 `build_system`: row `k`. -/
noncomputable def system (f : Fin m → ℝ) (Z : Fin m → ℂ) (n : Nat) (k : Fin m) (j : Nat) : ℂ :=
  row n (weight Z k : ℂ) (Z k) (sval (f k) / (scaleOf f : ℂ)) j

/-- src/components/SIBCPoleResidueFitting.cpp:166-170: the matrix of the second system. -/
noncomputable def partial1 {n : Nat} (f : Fin m → ℝ) (poles : Fin n → ℂ) (k : Fin m) (j : Fin n) : ℂ := 1 / (sval (f k) - poles j)

/-- Answers of the library: coefficients, poles, residues. (src/components/SIBCPoleResidueFitting.cpp:122-177) -/
structure Answers (n : Nat) where
  x        : Nat → ℂ
  poles    : Fin n → ℂ
  residues : Fin n → ℂ

/-- What Eigen promises (a dependency): `bdcSvd().solve` solves in the sense of least squares, `ComplexEigenSolver` returns all eigenvalues with their
multiplicities.  Calls at src/components/SIBCPoleResidueFitting.cpp:132, 138, 172. -/
structure Library (f : Fin m → ℝ) (Z : Fin m → ℂ) (n : Nat) (A : Answers n) : Prop where
  coefficients : ∀ y : Nat → ℂ, ∑ k, ‖∑ j ∈ range (2 * n + 1), system f Z n k j * A.x j - rhs (weight Z k : ℂ) (Z k)‖ ^ 2 ≤
    ∑ k, ‖∑ j ∈ range (2 * n + 1), system f Z n k j * y j - rhs (weight Z k : ℂ) (Z k)‖ ^ 2
  eigenvalues : (Matrix.of fun i j : Fin n => companion n (coeffs n A.x (scaleOf f : ℂ)) i j).charpoly =
    ∏ i, (Polynomial.X - Polynomial.C (A.poles i))
  residues : ∀ y : Fin n → ℂ, ∑ k, ‖∑ j, partial1 f A.poles k j * A.residues j - Z k‖ ^ 2 ≤ ∑ k, ‖∑ j, partial1 f A.poles k j * y j - Z k‖ ^ 2

/-- src/components/SIBCPoleResidueFitting.cpp:194-199: the fitted function at a frequency. -/
noncomputable def fitted {n : Nat} (A : Answers n) (f : ℝ) : ℂ := ∑ j, A.residues j / (sval f - A.poles j)

/-- src/components/SIBCPoleResidueFitting.cpp:201: relative error at a frequency. -/
noncomputable def relError {n : Nat} (A : Answers n) (f : ℝ) (z : ℂ) : ℝ := ‖fitted A f - z‖ / (‖z‖ + 1e-20)

/-- src/components/SIBCPoleResidueFitting.cpp:176-206, 208-219 `checkQuality`, `calcPolesAndResidues`: the result of one fit; `data` holds the real and
imaginary parts of poles and residues. -/
noncomputable def result {n : Nat} (f : Fin m → ℝ) (Z : Fin m → ℂ) (A : Answers n) : Fit ℝ :=
  { n := n
    err := maxError ((List.finRange m).map fun k => some (relError A (f k) (Z k)))
    stable := isStable ((List.finRange n).map fun j => some (A.poles j).re)
    data := (List.finRange n).flatMap fun j => [(A.poles j).re, (A.poles j).im, (A.residues j).re, (A.residues j).im] }

end Dgtd.PoleFit
