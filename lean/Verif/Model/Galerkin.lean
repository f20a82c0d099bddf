/-
Model of how the matrices of the global operator come from meshes of segments, triangles and tetrahedra, straight or curved:
quadrature orders (src/mfemExtension/IntegratorFunctions.cpp, src/components/DGOperatorFactory.h), normals, derivative matrices and the
values of the shape functions at the quadrature points of the faces.

Positions and shape functions are polynomials in the reference coordinates.  `n` is the dimension of the faces, `n + 1` that of the elements.
-/
import Verif.Model.Op
import Mathlib.Algebra.MvPolynomial.PDeriv
import Mathlib.Algebra.MvPolynomial.Monad
import Mathlib.LinearAlgebra.Matrix.Adjugate

namespace Dgtd.Galerkin
open MvPolynomial Dgtd.Op

/-- Polynomials in the reference coordinates of a simplex. (src/mfemExtension/IntegratorFunctions.cpp:7-53) -/
abbrev Poly (D : Nat) (K : Type) [CommSemiring K] := MvPolynomial (Fin D) K

/-- `FunctionSpace` of MFEM: polynomials of total degree (simplices) or of degree in each variable (squares, cubes).
(src/mfemExtension/IntegratorFunctions.cpp:22, 44) -/
inductive Space
  | Pk
  | Qk
  deriving DecidableEq, Repr

/-- MFEM's `IsoparametricTransformation::OrderW` (a dependency): order of the determinant of the Jacobian of an element of `dim` dimensions
whose positions are polynomials of order `m`. (src/mfemExtension/IntegratorFunctions.cpp:16-31) -/
def orderW (sp : Space) (dim m : Nat) : Nat :=
  match sp with
  | .Pk => (m - 1) * dim
  | .Qk => m * dim - 1

/-- src/mfemExtension/IntegratorFunctions.cpp:7-36 (and 38-53) `setIntegrationRule`: the order asked of the quadrature on a face; `p2` and `w2`
are those of the second element, if there is one. -/
def faceOrder (sp : Space) (dim p1 w1 : Nat) (second : Option (Nat × Nat)) : Nat :=
  let order := match second with
    | some (p2, w2) => min w1 w2 + 2 * max p1 p2
    | none => w1 + 2 * p1
  if sp = .Pk then
    let order := order + 1
    if dim > 1 ∧ w1 > 0 then order + w1 * (dim - 1) / dim else order
  else order

/-- src/components/DGOperatorFactory.h:438-455: the order asked of the quadrature of the derivative matrices on a mesh whose positions are of
order `m`; for straight simplices the default of MFEM's `DerivativeIntegrator`, `2 p - 1` (a dependency). -/
def volumeOrder (dim p m : Nat) : Nat := if m > 1 then 2 * p - 1 + (dim - 1) * (m - 1) else 2 * p - 1

variable {n : Nat} {ι K : Type} [Field K]

/-- An element: positions, number of shape functions, shape functions, degrees of freedom. (src/components/DGOperatorFactory.h:426-465) -/
structure Elem (n : Nat) (ι K : Type) [Field K] where
  geom : Fin (n + 1) → Poly (n + 1) K
  size : Nat
  shape : Nat → Poly (n + 1) K
  dof : Nat → ι

/-- Jacobian of the positions. (src/mfemExtension/IntegratorFunctions.cpp:71, 80) -/
noncomputable def Elem.jac (e : Elem n ι K) : Matrix (Fin (n + 1)) (Fin (n + 1)) (Poly (n + 1) K) := .of fun d k => pderiv k (e.geom d)

/-- The adjugate of the Jacobian, which MFEM's `DerivativeIntegrator` multiplies the gradients by (`CalcAdjugate`).
(src/mfemExtension/BilinearIntegrators.cpp:756; src/components/DGOperatorFactory.h:440-462) -/
noncomputable def Elem.adj (e : Elem n ι K) : Matrix (Fin (n + 1)) (Fin (n + 1)) (Poly (n + 1) K) := e.jac.adjugate

/-- A quadrature rule: weights and points. (src/mfemExtension/IntegratorFunctions.cpp:34, 52) -/
abbrev Rule (D : Nat) (K : Type) := List (K × (Fin D → K))

/-- MFEM's `DerivativeIntegrator::AssembleElementMatrix` (a dependency), direction `d`: entry of row (test function) `i` and column `j`.
(src/components/DGOperatorFactory.h:440-462) -/
noncomputable def derivElem (ir : Rule (n + 1) K) (e : Elem n ι K) (d : Fin (n + 1)) (i j : Nat) : K :=
  (ir.map fun q => q.1 * eval q.2 (e.shape i) * ∑ k, eval q.2 (e.adj k d) * eval q.2 (pderiv k (e.shape j))).sum

/-- src/components/DGOperatorFactory.h:426-465 `buildDerivativeSubOperator`: sum over the elements; nothing for the directions the mesh does
not have. -/
noncomputable def derivMatrix [DecidableEq ι] (els : List (Elem n ι K × Rule (n + 1) K)) (d : Dir) : Matrix ι ι K := fun r c =>
  if h : d.val < n + 1 then
    (els.map fun e => ∑ i ∈ Finset.range e.1.size, ∑ j ∈ Finset.range e.1.size,
      if e.1.dof i = r ∧ e.1.dof j = c then derivElem e.2 e.1 ⟨d.val, h⟩ i j else 0).sum
  else 0

/-- Barycentric coordinates of the reference face, in its own coordinates; the first is that of the origin.
(src/mfemExtension/IntegratorFunctions.cpp:65-73) -/
noncomputable def bary (i : Fin (n + 1)) : Poly n K := Fin.cases (1 - ∑ j, X j) (fun j => X j) i

/-- One side of a face: the element, which of its faces it is (`some k`: where the reference coordinate `k` is zero; `none`: where they add
up to one), and which vertex of the face each vertex of the element is: the vertex on axis `j` is the vertex `turn j`, and for `some k` the
origin is the vertex `turn k`. (src/mfemExtension/IntegratorFunctions.cpp:56-73, src/mfemExtension/BilinearIntegrators.cpp:30-50) -/
structure Side (n : Nat) (ι K : Type) [Field K] where
  e : Elem n ι K
  face : Option (Fin (n + 1))
  turn : Equiv.Perm (Fin (n + 1))

/-- MFEM's `Loc1`/`Loc2` (a dependency): reference coordinates of the element at a point of the face.
(src/mfemExtension/BilinearIntegrators.cpp:32-40) -/
noncomputable def loc (face : Option (Fin (n + 1))) (turn : Equiv.Perm (Fin (n + 1))) (j : Fin (n + 1)) : Poly n K :=
  if face = some j then 0 else bary (turn j)

/-- A function on the element as a function on the face. (src/mfemExtension/BilinearIntegrators.cpp:32-50) -/
noncomputable def Side.restrict (s : Side n ι K) (q : Poly (n + 1) K) : Poly n K := bind₁ (loc s.face s.turn) q

/-- Jacobian of the face: of the positions of the element along the face. (src/mfemExtension/IntegratorFunctions.cpp:71, 80) -/
noncomputable def Side.jac (s : Side n ι K) (d : Fin (n + 1)) (c : Fin n) : Poly n K := pderiv c (s.restrict (s.e.geom d))

/-- src/mfemExtension/IntegratorFunctions.cpp:56-73, 119-133 `calculateNormal`: in one dimension from the reference coordinate, otherwise MFEM's
`CalcOrtho` of the Jacobian of the face. -/
noncomputable def normal : {n : Nat} → Side n ι K → List (Poly n K)
  | 0, s => [2 * loc s.face s.turn 0 - 1]
  | 1, s => [s.jac 1 0, -s.jac 0 0]
  | 2, s => [s.jac 1 0 * s.jac 2 1 - s.jac 2 0 * s.jac 1 1, s.jac 2 0 * s.jac 0 1 - s.jac 0 0 * s.jac 2 1,
      s.jac 0 0 * s.jac 1 1 - s.jac 1 0 * s.jac 0 1]
  | _ + 3, _ => []

/-- A face of the mesh: its first side, its second side if it has one, its quadrature, and `Trans.Weight()` at the points.
(src/mfemExtension/BilinearIntegrators.cpp:9-149) -/
structure FemFace (n : Nat) (ι K : Type) [Field K] where
  s1 : Side n ι K
  s2 : Option (Side n ι K)
  rule : Rule n K
  W : (Fin n → K) → K

/-- What the face integrators read of a face: src/mfemExtension/BilinearIntegrators.cpp:9-37 (the same in the other integrators). -/
noncomputable def FemFace.toFace (f : FemFace n ι K) : Face ι K :=
  { ndof1 := f.s1.e.size
    ndof2 := match f.s2 with | some s => s.e.size | none => 0
    dofs := fun i => match f.s2 with
      | some s => if i < f.s1.e.size then f.s1.e.dof i else s.e.dof (i - f.s1.e.size)
      | none => f.s1.e.dof i
    pts := f.rule.map fun q =>
      { w := q.1
        W := f.W q.2
        nor := (normal f.s1).map fun c => eval q.2 c
        sh1 := fun i => eval q.2 (f.s1.restrict (f.s1.e.shape i))
        sh2 := fun i => match f.s2 with
          | some s => eval q.2 (s.restrict (s.e.shape i))
          | none => 0 } }

/-- A mesh with everything the assembly of src/components/DGOperatorFactory.h reads; inverse mass and conductivity matrices are inputs.
(lines 411-675) -/
structure Fem (n : Nat) (ι K : Type) [Field K] where
  els : List (Elem n ι K × Rule (n + 1) K)
  interior : List (Option BdrCond × FemFace n ι K)
  bdr : List (Option BdrCond × FemFace n ι K)
  alpha : K
  Minv : FieldT → Matrix ι ι K
  Msig : Matrix ι ι K

/-- The problem of `Verif.Model.Op` it gives. (src/components/DGOperatorFactory.h:1427-1560) -/
noncomputable def Fem.prob [DecidableEq ι] (F : Fem n ι K) : Prob ι K :=
  { dim := n + 1
    alpha := F.alpha
    interior := F.interior.map fun q => (q.1, q.2.toFace)
    bdr := F.bdr.map fun q => (q.1, q.2.toFace)
    Minv := F.Minv
    Msig := F.Msig
    D := derivMatrix F.els }

/-! ### one curved quadrilateral -/

/-- MFEM's reference square (a dependency): its edges, each run through so that the element lies on its left.
(src/mfemExtension/IntegratorFunctions.cpp:65-73) -/
noncomputable def edge (k : Fin 4) (j : Fin 2) : Poly 1 K :=
  match k, j with
  | 0, 0 => X 0
  | 0, 1 => 0
  | 1, 0 => 1
  | 1, 1 => X 0
  | 2, 0 => 1 - X 0
  | 2, 1 => 1
  | 3, 0 => 0
  | 3, 1 => 1 - X 0

/-- A face of a quadrilateral on the outer boundary, as `FemFace.toFace`. (src/mfemExtension/BilinearIntegrators.cpp:9-149) -/
noncomputable def quadFace (e : Elem 1 ι K) (r : Rule 1 K) (W : Fin 4 → (Fin 1 → K) → K) (k : Fin 4) : Face ι K :=
  { ndof1 := e.size
    ndof2 := 0
    dofs := e.dof
    pts := r.map fun q =>
      { w := q.1
        W := W k q.2
        nor := [eval q.2 (pderiv 0 (bind₁ (edge k) (e.geom 1))), -eval q.2 (pderiv 0 (bind₁ (edge k) (e.geom 0)))]
        sh1 := fun i => eval q.2 (bind₁ (edge k) (e.shape i))
        sh2 := fun _ => 0 } }

/-- A mesh of one quadrilateral in a conducting box. (src/components/DGOperatorFactory.h:1427-1560) -/
noncomputable def quadProb [DecidableEq ι] (e : Elem 1 ι K) (vol : Rule 2 K) (r : Rule 1 K) (W : Fin 4 → (Fin 1 → K) → K)
    (Minv : FieldT → Matrix ι ι K) : Prob ι K :=
  { dim := 2
    alpha := 0
    interior := []
    bdr := (List.finRange 4).map fun k => (some .PEC, quadFace e r W k)
    Minv := Minv
    Msig := 0
    D := derivMatrix [(e, vol)] }

/-- A mesh of a triangle, which comes first, and a quadrilateral that share an edge, whose positions have an order above one:
src/components/DGOperatorFactory.h:447-455 takes the quadrature for the geometry of element 0 and sets it for all elements.  `sh2`: values of
the shape functions of the triangle at the points of the shared edge; `others`: the other edges of the triangle. -/
noncomputable def mixedProb [DecidableEq ι] (tri quad : Elem 1 ι K) (vol : Rule 2 K) (r : Rule 1 K) (W : Fin 4 → (Fin 1 → K) → K) (sh2 : Nat → K)
    (others : List (Option BdrCond × Face ι K)) (Minv : FieldT → Matrix ι ι K) : Prob ι K :=
  { dim := 2
    alpha := 0
    interior := [(none,
      { ndof1 := quad.size
        ndof2 := tri.size
        dofs := fun i => if i < quad.size then quad.dof i else tri.dof (i - quad.size)
        pts := (quadFace quad r W 1).pts.map fun p => { p with sh2 := sh2 } })]
    bdr := [(some .PEC, quadFace quad r W 0), (some .PEC, quadFace quad r W 2), (some .PEC, quadFace quad r W 3)] ++ others
    Minv := Minv
    Msig := 0
    D := derivMatrix [(tri, vol), (quad, vol)] }

/-- MFEM's `IntRules.Get(SQUARE, order)` (a dependency): products of Gauss' points on the segment, `order / 2 + 1` in each direction.
(src/mfemExtension/IntegratorFunctions.cpp:34, 52) -/
def tensor (r : List (K × K)) : Rule 2 K := r.flatMap fun a => r.map fun b => (a.1 * b.1, ![a.2, b.2])

/-- Number of Gauss points in each direction. (src/mfemExtension/IntegratorFunctions.cpp:34, 52) -/
def gaussPoints (order : Nat) : Nat := order / 2 + 1

/-- The bilinear shape functions of a quadrilateral. (src/mfemExtension/BilinearIntegrators.cpp:32-50) -/
noncomputable def bilinear (i : Nat) : Poly 2 K :=
  match i with
  | 0 => (1 - X 0) * (1 - X 1)
  | 1 => X 0 * (1 - X 1)
  | 2 => X 0 * X 1
  | 3 => (1 - X 0) * X 1
  | _ => 0

/-! ### one curved hexahedron -/

/-- MFEM's reference cube (a dependency): its faces. (src/mfemExtension/IntegratorFunctions.cpp:65-73) -/
noncomputable def cubeFace (k : Fin 6) : Fin 3 → Poly 2 K :=
  match k with
  | 0 => ![X 0, 1 - X 1, 0]
  | 1 => ![X 0, 0, X 1]
  | 2 => ![1, X 0, X 1]
  | 3 => ![1 - X 0, 1, X 1]
  | 4 => ![0, 1 - X 0, X 1]
  | 5 => ![X 0, X 1, 1]

/-- Jacobian of a face. (src/mfemExtension/IntegratorFunctions.cpp:71, 80) -/
noncomputable def cubeJac (e : Elem 2 ι K) (k : Fin 6) (d : Fin 3) (c : Fin 2) : Poly 2 K := pderiv c (bind₁ (cubeFace k) (e.geom d))

/-- A face of a hexahedron on the outer boundary, as `FemFace.toFace`. (src/mfemExtension/BilinearIntegrators.cpp:9-149) -/
noncomputable def hexFace (e : Elem 2 ι K) (r : Rule 2 K) (W : Fin 6 → (Fin 2 → K) → K) (k : Fin 6) : Face ι K :=
  { ndof1 := e.size
    ndof2 := 0
    dofs := e.dof
    pts := r.map fun q =>
      { w := q.1
        W := W k q.2
        nor := [eval q.2 (cubeJac e k 1 0 * cubeJac e k 2 1 - cubeJac e k 2 0 * cubeJac e k 1 1),
          eval q.2 (cubeJac e k 2 0 * cubeJac e k 0 1 - cubeJac e k 0 0 * cubeJac e k 2 1),
          eval q.2 (cubeJac e k 0 0 * cubeJac e k 1 1 - cubeJac e k 1 0 * cubeJac e k 0 1)]
        sh1 := fun i => eval q.2 (bind₁ (cubeFace k) (e.shape i))
        sh2 := fun _ => 0 } }

/-- A mesh of one hexahedron in a conducting box. (src/components/DGOperatorFactory.h:1427-1560) -/
noncomputable def hexProb [DecidableEq ι] (e : Elem 2 ι K) (vol : Rule 3 K) (r : List (K × K)) (W : Fin 6 → (Fin 2 → K) → K)
    (Minv : FieldT → Matrix ι ι K) : Prob ι K :=
  { dim := 3
    alpha := 0
    interior := []
    bdr := (List.finRange 6).map fun k => (some .PEC, hexFace e (tensor r) W k)
    Minv := Minv
    Msig := 0
    D := derivMatrix [(e, vol)] }

/-- MFEM's `IntRules.Get(CUBE, order)` (a dependency), as `tensor`. (src/mfemExtension/IntegratorFunctions.cpp:34, 52) -/
def tensor3 (r : List (K × K)) : Rule 3 K := r.flatMap fun a => r.flatMap fun b => r.map fun c => (a.1 * b.1 * c.1, ![a.2, b.2, c.2])

/-- The trilinear shape functions of a hexahedron. (src/mfemExtension/BilinearIntegrators.cpp:32-50) -/
noncomputable def trilinear (i : Nat) : Poly 3 K :=
  match i with
  | 0 => (1 - X 0) * (1 - X 1) * (1 - X 2)
  | 1 => X 0 * (1 - X 1) * (1 - X 2)
  | 2 => X 0 * X 1 * (1 - X 2)
  | 3 => (1 - X 0) * X 1 * (1 - X 2)
  | 4 => (1 - X 0) * (1 - X 1) * X 2
  | 5 => X 0 * (1 - X 1) * X 2
  | 6 => X 0 * X 1 * X 2
  | 7 => (1 - X 0) * X 1 * X 2
  | _ => 0

end Dgtd.Galerkin
