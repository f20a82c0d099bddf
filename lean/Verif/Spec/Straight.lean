/-
Specification: valid straight meshes of segments, triangles, quadrilaterals, tetrahedra and hexahedra, and their energy.
-/
import Verif.Model.Straight
import Verif.Spec.GalerkinMass
import Mathlib.MeasureTheory.Integral.Bochner.Set
import Mathlib.MeasureTheory.Measure.Lebesgue.Basic

namespace Dgtd.Straight.Spec
open MvPolynomial Dgtd.Op Dgtd.Op.Spec Dgtd.Straight MeasureTheory
open Dgtd.Galerkin (Poly Elem Rule)
open Dgtd.Galerkin.Spec (InSimplex onElem materialOf)
open Dgtd.Config (Material)

variable {n : Nat} {ι : Type}

/-- The reference elements. -/
def Inside {D : Nat} (sh : Shape) (x : Fin D → ℝ) : Prop :=
  match sh with
  | .simplex => InSimplex x
  | .box => ∀ i, 0 ≤ x i ∧ x i ≤ 1

/-- Integrals over them. -/
noncomputable def integral (sh : Shape) {D : Nat} (q : Poly D ℝ) : ℝ :=
  match sh with
  | .simplex => Galerkin.Spec.integral D q
  | .box => ∫ x in Set.Icc (0 : Fin D → ℝ) 1, eval x q

/-- Polynomials of order `N`: in all variables together on simplices, in each variable on squares and cubes. -/
def Order {D : Nat} (sh : Shape) (N : Nat) (q : Poly D ℝ) : Prop :=
  match sh with
  | .simplex => q.totalDegree ≤ N
  | .box => ∀ i, q.degreeOf i ≤ N

/-- A quadrature rule is exact up to order `N`. -/
def Exact {D : Nat} (sh : Shape) (N : Nat) (r : Rule D ℝ) : Prop :=
  ∀ q : Poly D ℝ, Order sh N q → (r.map fun p => p.1 * eval p.2 q).sum = integral sh q

/-- Outward normal of a face of the reference element, with the length of its area relative to that of the reference face. -/
noncomputable def refNormal (key : Key n) (k : Fin (n + 1)) : ℝ :=
  match key with
  | .simplex face => Galerkin.Spec.refNormal face k
  | .box axis upper => if k = axis then (if upper then 1 else -1) else 0

/-- The same side of the reference element, whose positions are the coordinates themselves. -/
noncomputable def refSide (s : Side n ι) : Side n ι := { s with e := { s.e with geom := X } }

/-- A side along which the face runs so that its normal points out of the element. -/
def Outward (s : Side n ι) : Prop := normal (refSide s) = (List.finRange (n + 1)).map fun k => C (refNormal s.place.key k)

/-- Two sides of one face: they have the same positions along the face, and the second element lies opposite: the normal points into it
(on a line: one element ends where the other begins).  A face that is a triangle for one element is not a quadrilateral for the other. -/
def Meet : {n : Nat} → (s s2 : Side n ι) → Prop
  | 0, s, s2 => ∀ k, refNormal s.place.key k = -refNormal s2.place.key k
  | n + 1, s, s2 => (∀ d, s.restrict (s.e.geom d) = s2.restrict (s2.e.geom d)) ∧
      normal (refSide s2) = (List.finRange (n + 2)).map (fun k => -C (refNormal s2.place.key k)) ∧
      (2 ≤ n + 1 → s.place.key.shape = s2.place.key.shape)

/-- The sides of a face. -/
def sides (f : MeshFace n ι) : List (Elem n ι ℝ × Key n) :=
  (f.s1.e, f.s1.place.key) :: (match f.s2 with | some s => [(s.e, s.place.key)] | none => [])

/-- The faces of a reference element. -/
def keys (sh : Shape) (n : Nat) : List (Key n) :=
  match sh with
  | .simplex => .simplex none :: (List.finRange (n + 1)).map fun k => .simplex (some k)
  | .box => (List.finRange (n + 1)).flatMap fun k => [.box k true, .box k false]

/-- All faces of the mesh. -/
def faces (S : Setup n ι) : List (MeshFace n ι) := (S.interior ++ S.bdr).map Prod.snd

/-- A straight mesh with shape functions of order `p`: conforming (every face of an element is one side of one face of the mesh, and the two
sides of a face meet), the elements neither degenerate nor turned over, the shape functions of an element independent, every degree of freedom of one
element, the points of the faces' quadratures on the faces, the quadratures exact to the orders the code asks for; every exterior face with a
condition, no thin layers. -/
structure ValidMesh (S : Setup n ι) (p : Nat) : Prop where
  dim : n < 3
  order : 1 ≤ p
  geom : ∀ c ∈ S.cells, ∀ d, Order c.shape 1 (c.e.geom d)
  shape : ∀ c ∈ S.cells, ∀ i, Order c.shape p (c.e.shape i)
  cover : ((faces S).flatMap sides).Perm (S.cells.flatMap fun c => (keys c.shape n).map fun k => (c.e, k))
  one : ∀ f ∈ faces S, Outward f.s1
  two : ∀ f ∈ faces S, ∀ s ∈ f.s2, Meet f.s1 s
  volume : ∀ c ∈ S.cells, Exact c.shape (volumeOrder c.shape (n + 1) p) c.vol
  surface : ∀ f ∈ faces S, Exact f.s1.place.key.shape (f.order p) f.rule
  mass : ∀ c ∈ S.cells, Exact c.shape (Galerkin.massOrder p (Galerkin.orderW c.shape.space (n + 1) 1)) c.mass
  jacobian : ∀ c ∈ S.cells, ∀ x, Inside c.shape x → 0 < eval x c.e.jac.det
  independent : ∀ c ∈ S.cells, ∀ a : Nat → ℝ, ∑ i ∈ Finset.range c.e.size, C (a i) * c.e.shape i = 0 → ∀ i < c.e.size, a i = 0
  dofs_nodup : (S.cells.flatMap fun c => (List.range c.e.size).map c.e.dof).Nodup
  dofs_all : ∀ r, r ∈ S.cells.flatMap fun c => (List.range c.e.size).map c.e.dof
  inside : ∀ f ∈ faces S, ∀ x ∈ f.rule, Inside f.s1.place.key.shape x.2
  bdr_cond : ∀ q ∈ S.bdr, q.1 ≠ none
  bdr_one_side : ∀ q ∈ S.bdr, q.2.s2 = none
  no_sgbc : ∀ q ∈ S.interior, q.1 ≠ some .SGBC

/-- Every element has a material, with positive permittivity and permeability and without negative conductivity. -/
structure ValidMaterials (S : Setup n ι) (ms : List (Int × Material ℝ)) : Prop where
  keys : (ms.map Prod.fst).Nodup
  pos : ∀ q ∈ ms, 1 ≤ q.1
  eps : ∀ q ∈ ms, 0 < q.2.eps
  mu : ∀ q ∈ ms, 0 < q.2.mu
  sigma : ∀ q ∈ ms, 0 ≤ q.2.sigma
  all : ∀ c ∈ S.cells, ∃ m, Assoc.find ms c.attr = some m

/-- Electromagnetic energy of the fields: `½ ∫ ε |E|² + μ |H|²`, element by element in reference coordinates. -/
noncomputable def fieldEnergy (S : Setup n ι) (ms : List (Int × Material ℝ)) (u : State ι ℝ) : ℝ :=
  1 / 2 * (S.cells.map fun c => ∑ d : Dir,
    ((materialOf ms c.toCell).eps * integral c.shape (onElem c.e (u .E d) ^ 2 * c.e.jac.det) +
      (materialOf ms c.toCell).mu * integral c.shape (onElem c.e (u .H d) ^ 2 * c.e.jac.det))).sum

end Dgtd.Straight.Spec
