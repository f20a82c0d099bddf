/-
Specification: exact integrals of polynomials over the reference simplex, exact quadrature, conforming meshes of simplices.
-/
import Verif.Model.Galerkin
import Verif.Spec.Op
import Mathlib.RingTheory.MvPolynomial.Basic
import Mathlib.Data.Nat.Factorial.Basic

namespace Dgtd.Galerkin.Spec
open MvPolynomial Dgtd.Op Dgtd.Galerkin

variable {n : Nat} {ι K : Type} [Field K]

/-- Integral of the monomial of exponents `a` over the reference simplex of `D` dimensions (`x_i ≥ 0`, `∑ x_i ≤ 1`). -/
def moment (D : Nat) (a : Fin D →₀ ℕ) : K := (∏ i, ((a i).factorial : K)) / ((∑ i, a i + D).factorial : K)

/-- Integral of a polynomial over the reference simplex. -/
noncomputable def integral (D : Nat) : Poly D K →ₗ[K] K := (basisMonomials (Fin D) K).constr K (moment D)

/-- A quadrature rule is exact up to degree `N` on the reference simplex. -/
def Exact {D : Nat} (N : Nat) (r : Rule D K) : Prop :=
  ∀ q : Poly D K, q.totalDegree ≤ N → (r.map fun p => p.1 * eval p.2 q).sum = integral D q

/-- Normal of a face of the reference simplex, with the length of its area relative to that of the reference face. -/
def refNormal (face : Option (Fin (n + 1))) (k : Fin (n + 1)) : K :=
  match face with
  | none => 1
  | some j => if k = j then -1 else 0

/-- The same side of the reference element, whose positions are the coordinates themselves. -/
noncomputable def refSide (s : Side n ι K) : Side n ι K := { s with e := { s.e with geom := X } }

/-- A side along which the face runs so that its normal points out of the element. -/
def Outward (s : Side n ι K) : Prop := normal (refSide s) = (List.finRange (n + 1)).map fun k => C (refNormal s.face k)

/-- Two sides of one face: they have the same positions along the face, and the second element lies opposite: the normal points into it
(on a line: one element ends where the other begins). -/
def Meet : {n : Nat} → (s s2 : Side n ι K) → Prop
  | 0, s, s2 => s.face ≠ s2.face
  | n + 1, s, s2 => (∀ d, s.restrict (s.e.geom d) = s2.restrict (s2.e.geom d)) ∧
      normal (refSide s2) = (List.finRange (n + 2)).map fun k => -C (refNormal s2.face k)

/-- The sides of a face. -/
def sides (f : FemFace n ι K) : List (Elem n ι K × Option (Fin (n + 1))) :=
  (f.s1.e, f.s1.face) :: (match f.s2 with | some s => [(s.e, s.face)] | none => [])

/-- All faces of all elements. -/
def elemFaces (F : Fem n ι K) : List (Elem n ι K × Option (Fin (n + 1))) :=
  F.els.flatMap fun e => (none :: (List.finRange (n + 1)).map some).map fun f => (e.1, f)

/-- All faces of the mesh. -/
def faces (F : Fem n ι K) : List (FemFace n ι K) := F.interior.map Prod.snd ++ F.bdr.map Prod.snd

/-- A mesh of segments, triangles or tetrahedra whose positions have order `m` and whose shape functions have order `p`: every face of an
element is one side of one face of the mesh; the two sides of a face meet; the quadratures have the orders the code asks for. -/
structure Simplicial (F : Fem n ι K) (p m : Nat) : Prop where
  dim : n < 3
  order : 1 ≤ p
  geomOrder : 1 ≤ m
  geom : ∀ e ∈ F.els, ∀ d, (e.1.geom d).totalDegree ≤ m
  shape : ∀ e ∈ F.els, ∀ i, (e.1.shape i).totalDegree ≤ p
  cover : ((faces F).flatMap sides).Perm (elemFaces F)
  one : ∀ f ∈ faces F, Outward f.s1
  two : ∀ f ∈ faces F, ∀ s ∈ f.s2, Meet f.s1 s
  volume : ∀ e ∈ F.els, Exact (volumeOrder (n + 1) p m) e.2
  surface : ∀ f ∈ faces F, Exact (faceOrder .Pk (n + 1) p (orderW .Pk (n + 1) m) (f.s2.map fun _ => (p, orderW .Pk (n + 1) m))) f.rule

end Dgtd.Galerkin.Spec
