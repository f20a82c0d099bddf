/-
Specification: meshes of valid elements, and their energy.
-/
import Verif.Model.GalerkinMass
import Verif.Spec.Galerkin

namespace Dgtd.Galerkin.Spec
open MvPolynomial Dgtd.Op Dgtd.Op.Spec Dgtd.Galerkin
open Dgtd.Config (Material)

variable {n : Nat} {ι : Type}

/-- The closed reference simplex. -/
def InSimplex {D : Nat} (x : Fin D → ℝ) : Prop := (∀ i, 0 ≤ x i) ∧ ∑ i, x i ≤ 1

/-- The function on an element whose coefficients are `u`. -/
noncomputable def onElem (e : Elem n ι ℝ) (u : ι → ℝ) : Poly (n + 1) ℝ := ∑ i ∈ Finset.range e.size, C (u (e.dof i)) * e.shape i

/-- A mesh of segments, triangles or tetrahedra with positions of order `m` and shape functions of order `p`: conforming, the elements neither
degenerate nor turned over, the shape functions of an element independent, every degree of freedom of one element, the points of the faces'
quadratures on the faces, the quadratures of the mass matrices exact to the order MFEM asks for; every exterior face with a condition, no
thin layers. -/
structure ValidMesh (S : Setup n ι) (p m : Nat) : Prop where
  simplicial : Simplicial S.skeleton p m
  jacobian : ∀ c ∈ S.cells, ∀ x, InSimplex x → 0 < eval x c.e.jac.det
  independent : ∀ c ∈ S.cells, ∀ a : Nat → ℝ, ∑ i ∈ Finset.range c.e.size, C (a i) * c.e.shape i = 0 → ∀ i < c.e.size, a i = 0
  dofs_nodup : (S.cells.flatMap fun c => (List.range c.e.size).map c.e.dof).Nodup
  dofs_all : ∀ r, r ∈ S.cells.flatMap fun c => (List.range c.e.size).map c.e.dof
  inside : ∀ q ∈ S.interior ++ S.bdr, ∀ x ∈ q.2.rule, InSimplex x.2
  mass : ∀ c ∈ S.cells, Exact (massOrder p (orderW .Pk (n + 1) m)) c.mass
  bdr_cond : ∀ q ∈ S.bdr, q.1 ≠ none
  bdr_one_side : ∀ q ∈ S.bdr, q.2.s2 = none
  no_sgbc : ∀ q ∈ S.interior, q.1 ≠ some .SGBC

/-- Every element has a material, with positive permittivity and permeability and without negative conductivity. -/
structure ValidMaterials (S : Setup n ι) (ms : List (Int × Material ℝ)) : Prop where
  keys : (ms.map Prod.fst).Nodup
  pos : ∀ q ∈ ms, 1 ≤ q.1
  eps : ∀ q ∈ ms, 0 < q.2.eps
  mu : ∀ q ∈ ms, 0 < q.2.mu
  sigma : ∀ q ∈ ms, 0 ≤ q.2.sigma
  all : ∀ c ∈ S.cells, ∃ m, Assoc.find ms c.attr = some m

/-- The material of an element. -/
def materialOf (ms : List (Int × Material ℝ)) (c : Cell n ι) : Material ℝ := (Assoc.find ms c.attr).getD ⟨0, 0, 0⟩

/-- Electromagnetic energy of the fields: `½ ∫ ε |E|² + μ |H|²`, element by element in reference coordinates. -/
noncomputable def fieldEnergy (S : Setup n ι) (ms : List (Int × Material ℝ)) (u : State ι ℝ) : ℝ :=
  1 / 2 * (S.cells.map fun c => ∑ d : Dir,
    ((materialOf ms c).eps * integral (n + 1) (onElem c.e (u .E d) ^ 2 * c.e.jac.det) +
      (materialOf ms c).mu * integral (n + 1) (onElem c.e (u .H d) ^ 2 * c.e.jac.det))).sum

end Dgtd.Galerkin.Spec
