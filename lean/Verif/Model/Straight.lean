/-
Model of how the global operator comes from straight meshes that may have quadrilaterals and hexahedra: segments, triangles, quadrilaterals,
tetrahedra and hexahedra, triangles and quadrilaterals also in one mesh.  The parts that do not depend on the shape of the elements (derivative and
mass matrices) are those of `Verif.Model.Galerkin` and `Verif.Model.GalerkinMass`.

Positions and shape functions are polynomials in the reference coordinates.  `n` is the dimension of the faces, `n + 1` that of the elements.
-/
import Verif.Model.GalerkinMass
import Mathlib.Data.Fin.Tuple.Basic

namespace Dgtd.Straight
open MvPolynomial Dgtd.Op
open Dgtd.Galerkin (Poly Elem Rule Space derivMatrix massMatrix invMassMatrix coefs)
open Dgtd.Config (Material Err epsMuVector sigmaVector)

/-- MFEM's reference elements (a dependency): segment, triangle, tetrahedron; segment, square, cube.
(src/mfemExtension/IntegratorFunctions.cpp:22, 44) -/
inductive Shape
  | simplex
  | box
  deriving DecidableEq, Repr

/-- MFEM's `FiniteElement::Space` (a dependency). (src/mfemExtension/IntegratorFunctions.cpp:22, 44) -/
def Shape.space : Shape → Space
  | .simplex => .Pk
  | .box => .Qk

/-- src/components/DGOperatorFactory.h:426-465: on a mesh whose positions have order one no quadrature is set, and MFEM's `DerivativeIntegrator`
(a dependency) takes that of its default order: `p + p - 1` on simplices, `p + p + dim` on squares and cubes. -/
def volumeOrder (sh : Shape) (dim p : Nat) : Nat :=
  match sh with
  | .simplex => p + p - 1
  | .box => p + p + dim

variable {n : Nat} {ι : Type}

/-- A face of a reference element: of a simplex as in `Verif.Model.Galerkin`; of a square or cube, where the coordinate `axis` is 1 (`upper`) or 0.
(src/mfemExtension/IntegratorFunctions.cpp:56-73) -/
inductive Key (n : Nat)
  | simplex (face : Option (Fin (n + 1)))
  | box (axis : Fin (n + 1)) (upper : Bool)
  deriving DecidableEq

/-- The shape it belongs to. (src/mfemExtension/IntegratorFunctions.cpp:56-73) -/
def Key.shape : Key n → Shape
  | .simplex _ => .simplex
  | .box _ _ => .box

/-- A face of a reference element and how the face of the mesh runs along it: for a simplex as in `Verif.Model.Galerkin`; for a square or cube
the remaining coordinates are those of the face, in the order `turn`, counted backwards where `flip`.
(src/mfemExtension/BilinearIntegrators.cpp:32-40) -/
inductive Place (n : Nat)
  | simplex (face : Option (Fin (n + 1))) (turn : Equiv.Perm (Fin (n + 1)))
  | box (axis : Fin (n + 1)) (upper : Bool) (turn : Equiv.Perm (Fin n)) (flip : Fin n → Bool)

/-- The face without how it is run through. (src/mfemExtension/BilinearIntegrators.cpp:32-40) -/
def Place.key : Place n → Key n
  | .simplex face _ => .simplex face
  | .box axis upper _ _ => .box axis upper

/-- A coordinate of the face, counted backwards if asked. (src/mfemExtension/BilinearIntegrators.cpp:32-40) -/
noncomputable def coord (flip : Bool) (j : Fin n) : Poly n ℝ := if flip then 1 - X j else X j

/-- MFEM's `Loc1`/`Loc2` (a dependency): reference coordinates of the element at a point of the face.
(src/mfemExtension/BilinearIntegrators.cpp:32-40) -/
noncomputable def loc : Place n → Fin (n + 1) → Poly n ℝ
  | .simplex face turn => Galerkin.loc face turn
  | .box axis upper turn flip => axis.insertNth (C (if upper then 1 else 0)) fun i => coord (flip i) (turn i)

/-- One side of a face. (src/mfemExtension/BilinearIntegrators.cpp:9-52) -/
structure Side (n : Nat) (ι : Type) where
  e : Elem n ι ℝ
  place : Place n

/-- A function on the element as a function on the face. (src/mfemExtension/BilinearIntegrators.cpp:32-50) -/
noncomputable def Side.restrict (s : Side n ι) (q : Poly (n + 1) ℝ) : Poly n ℝ := bind₁ (loc s.place) q

/-- Jacobian of the face: of the positions of the element along the face. (src/mfemExtension/IntegratorFunctions.cpp:71, 80) -/
noncomputable def Side.jac (s : Side n ι) (d : Fin (n + 1)) (c : Fin n) : Poly n ℝ := pderiv c (s.restrict (s.e.geom d))

/-- src/mfemExtension/IntegratorFunctions.cpp:56-73, 119-133 `calculateNormal`: in one dimension from the reference coordinate, otherwise MFEM's
`CalcOrtho` of the Jacobian of the face. -/
noncomputable def normal : {n : Nat} → Side n ι → List (Poly n ℝ)
  | 0, s => [2 * loc s.place 0 - 1]
  | 1, s => [s.jac 1 0, -s.jac 0 0]
  | 2, s => [s.jac 1 0 * s.jac 2 1 - s.jac 2 0 * s.jac 1 1, s.jac 2 0 * s.jac 0 1 - s.jac 0 0 * s.jac 2 1,
      s.jac 0 0 * s.jac 1 1 - s.jac 1 0 * s.jac 0 1]
  | _ + 3, _ => []

/-- A face of the mesh: its first side, its second side if it has one, its quadrature. (src/mfemExtension/BilinearIntegrators.cpp:9-149) -/
structure MeshFace (n : Nat) (ι : Type) where
  s1 : Side n ι
  s2 : Option (Side n ι)
  rule : Rule n ℝ

/-- src/mfemExtension/IntegratorFunctions.cpp:7-36 `setIntegrationRule`: the order asked of the quadrature of a face with elements of order `p` and
positions of order one. -/
def MeshFace.order (f : MeshFace n ι) (p : Nat) : Nat :=
  Galerkin.faceOrder f.s1.place.key.shape.space (n + 1) p (Galerkin.orderW f.s1.place.key.shape.space (n + 1) 1)
    (f.s2.map fun s => (p, Galerkin.orderW s.place.key.shape.space (n + 1) 1))

/-- What the face integrators read of a face: src/mfemExtension/BilinearIntegrators.cpp:9-37 (the same in the other integrators); MFEM's
`Trans.Weight()` of a face (a dependency) is the length of the normal (1 on a line). -/
noncomputable def MeshFace.toFace (f : MeshFace n ι) : Face ι ℝ :=
  { ndof1 := f.s1.e.size
    ndof2 := match f.s2 with | some s => s.e.size | none => 0
    dofs := fun i => match f.s2 with
      | some s => if i < f.s1.e.size then f.s1.e.dof i else s.e.dof (i - f.s1.e.size)
      | none => f.s1.e.dof i
    pts := f.rule.map fun q =>
      { w := q.1
        W := √(((normal f.s1).map fun c => eval q.2 c ^ 2).sum)
        nor := (normal f.s1).map fun c => eval q.2 c
        sh1 := fun i => eval q.2 (f.s1.restrict (f.s1.e.shape i))
        sh2 := fun i => match f.s2 with
          | some s => eval q.2 (s.restrict (s.e.shape i))
          | none => 0 } }

/-- An element of the mesh and its shape. (src/components/DGOperatorFactory.h:411-465) -/
structure Cell (n : Nat) (ι : Type) extends Galerkin.Cell n ι where
  shape : Shape

/-- A mesh and the numerical parameters. (src/components/DGOperatorFactory.h:411-675) -/
structure Setup (n : Nat) (ι : Type) where
  cells : List (Cell n ι)
  interior : List (Option BdrCond × MeshFace n ι)
  bdr : List (Option BdrCond × MeshFace n ι)
  alpha : ℝ

/-- The assembly from a mesh and the materials of its attributes, src/components/DGOperatorFactory.h:411-465, 849-861 with
src/components/Model.cpp:145-172: the problem of `Verif.Model.Op`. -/
noncomputable def Setup.prob [DecidableEq ι] (S : Setup n ι) (ms : List (Int × Material ℝ)) : Except Err (Prob ι ℝ) := do
  let ve ← epsMuVector ms .E
  let vm ← epsMuVector ms .H
  let vs ← sigmaVector ms
  let cells := S.cells.map fun c => c.toCell
  let ce ← coefs ve cells
  let cm ← coefs vm cells
  let cs ← coefs vs cells
  pure
    { dim := n + 1
      alpha := S.alpha
      interior := S.interior.map fun q => (q.1, q.2.toFace)
      bdr := S.bdr.map fun q => (q.1, q.2.toFace)
      Minv := fun f => match f with
        | .E => invMassMatrix ce
        | .H => invMassMatrix cm
      Msig := massMatrix cs
      D := derivMatrix (S.cells.map fun c => (c.e, c.vol)) }

end Dgtd.Straight
