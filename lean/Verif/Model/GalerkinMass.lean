/-
Model of the mass matrices of the global operator and of the whole way from a mesh and its materials to the problem of `Verif.Model.Op`:
src/components/DGOperatorFactory.h `buildInverseMassMatrixSubOperator`, `buildSigmaMassOperator`.

`double` is a real number; inverting a dense matrix is exact.
-/
import Verif.Model.Galerkin
import Verif.Model.Config
import Mathlib.Analysis.SpecialFunctions.Sqrt
import Mathlib.LinearAlgebra.Matrix.NonsingularInverse

namespace Dgtd.Galerkin
open MvPolynomial Dgtd.Op
open Dgtd.Config (Material Err epsMuVector sigmaVector pwEval)

variable {n : Nat} {ι : Type}

/-- MFEM's `MassIntegrator::GetRule` (a dependency): the order asked of its quadrature, for an element of order `p` whose determinant has
order `w`. (src/components/DGOperatorFactory.h:411-424, 849-861) -/
def massOrder (p w : Nat) : Nat := p + p + w

/-- An element of the mesh: its attribute, and the quadratures of its derivative and mass matrices.
(src/components/DGOperatorFactory.h:411-465) -/
structure Cell (n : Nat) (ι : Type) where
  e : Elem n ι ℝ
  attr : Int
  vol : Rule (n + 1) ℝ
  mass : Rule (n + 1) ℝ

/-- MFEM's `MassIntegrator::AssembleElementMatrix` (a dependency) with a coefficient constant on the element; `Trans.Weight()` is the
determinant of the Jacobian. (src/components/DGOperatorFactory.h:411-424, 849-861) -/
noncomputable def massElem (c : Cell n ι) (a : ℝ) : Matrix (Fin c.e.size) (Fin c.e.size) ℝ := fun i j =>
  (c.mass.map fun q => q.1 * eval q.2 c.e.jac.det * a * (eval q.2 (c.e.shape i) * eval q.2 (c.e.shape j))).sum

/-- MFEM's `BilinearForm::Assemble` (a dependency): the matrices of the elements are added at their degrees of freedom.
(src/components/DGOperatorFactory.h:411-424, 849-861) -/
noncomputable def assemble [DecidableEq ι] (els : List ((c : Cell n ι) × Matrix (Fin c.e.size) (Fin c.e.size) ℝ)) : Matrix ι ι ℝ := fun r s =>
  (els.map fun p => ∑ i : Fin p.1.e.size, ∑ j : Fin p.1.e.size, if p.1.e.dof i = r ∧ p.1.e.dof j = s then p.2 i j else 0).sum

/-- A face of the mesh: its sides and its quadrature. (src/mfemExtension/BilinearIntegrators.cpp:9-149) -/
structure MeshFace (n : Nat) (ι : Type) where
  s1 : Side n ι ℝ
  s2 : Option (Side n ι ℝ)
  rule : Rule n ℝ

/-- What the integrators read of it; MFEM's `Trans.Weight()` of a face (a dependency) is the length of the normal (1 on a line).
(src/mfemExtension/BilinearIntegrators.cpp:9-149) -/
noncomputable def MeshFace.fem (f : MeshFace n ι) : FemFace n ι ℝ :=
  { s1 := f.s1
    s2 := f.s2
    rule := f.rule
    W := fun x => √(((normal f.s1).map fun c => eval x c ^ 2).sum) }

/-- A mesh and the numerical parameters. (src/components/DGOperatorFactory.h:411-675) -/
structure Setup (n : Nat) (ι : Type) where
  cells : List (Cell n ι)
  interior : List (Option BdrCond × MeshFace n ι)
  bdr : List (Option BdrCond × MeshFace n ι)
  alpha : ℝ

/-- The coefficient of an integrator on every element: MFEM's `PWConstCoefficient` reads the entry of its attribute.
(src/components/Model.cpp:131-178) -/
def coefs (v : List ℝ) (cells : List (Cell n ι)) : Except Err (List (Cell n ι × ℝ)) :=
  cells.mapM fun c => do
    let a ← pwEval v c.attr
    pure (c, a)

/-- src/components/DGOperatorFactory.h:849-861 `buildSigmaMassOperator` for the coefficients of the elements. -/
noncomputable def massMatrix [DecidableEq ι] (l : List (Cell n ι × ℝ)) : Matrix ι ι ℝ := assemble (l.map fun p => ⟨p.1, massElem p.1 p.2⟩)

/-- src/components/DGOperatorFactory.h:411-424 `buildInverseMassMatrixSubOperator`: MFEM's `InverseIntegrator` inverts the matrix of each
element. -/
noncomputable def invMassMatrix [DecidableEq ι] (l : List (Cell n ι × ℝ)) : Matrix ι ι ℝ := assemble (l.map fun p => ⟨p.1, (massElem p.1 p.2)⁻¹⟩)

/-- The mesh with no matrices assembled yet. (src/components/DGOperatorFactory.h:411-675) -/
noncomputable def Setup.skeleton (S : Setup n ι) : Fem n ι ℝ :=
  { els := S.cells.map fun c => (c.e, c.vol)
    interior := S.interior.map fun q => (q.1, q.2.fem)
    bdr := S.bdr.map fun q => (q.1, q.2.fem)
    alpha := S.alpha
    Minv := fun _ => 0
    Msig := 0 }

/-- The assembly from a mesh and the materials of its attributes: src/components/DGOperatorFactory.h:411-424, 849-861 with
src/components/Model.cpp:145-172. -/
noncomputable def Setup.fem [DecidableEq ι] (S : Setup n ι) (ms : List (Int × Material ℝ)) : Except Err (Fem n ι ℝ) := do
  let ve ← epsMuVector ms .E
  let vm ← epsMuVector ms .H
  let vs ← sigmaVector ms
  let ce ← coefs ve S.cells
  let cm ← coefs vm S.cells
  let cs ← coefs vs S.cells
  pure { S.skeleton with
    Minv := fun f => match f with
      | .E => invMassMatrix ce
      | .H => invMassMatrix cm
    Msig := massMatrix cs }

end Dgtd.Galerkin
