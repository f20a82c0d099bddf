/-
Specification: electric and magnetic charges as test functions see them, on straight meshes that may have quadrilaterals and hexahedra.  Test
functions, their gradients and which conditions hold charge are those of `Verif.Spec.Charge`.
-/
import Verif.Spec.StraightField
import Verif.Spec.Charge

namespace Dgtd.Straight.Spec
open MvPolynomial Dgtd.Op Dgtd.Op.Spec Dgtd.Straight
open Dgtd.Galerkin (Poly Elem)
open Dgtd.Galerkin.Spec (onElem materialOf Test Holds gradient ddx matOf)
open Dgtd.Config (Material)

variable {n : Nat} {ι : Type}

/-- Value of a test function at a point of a face, seen from one side. -/
noncomputable def testAt (φ : Test n ι) (s : Side n ι) (x : Fin n → ℝ) : ℝ := eval (pos s x) (φ s.e)

/-- The test function does not vary on a face, seen from one side. -/
def Level (φ : Test n ι) (s : Side n ι) : Prop := ∃ k, ∀ x, Inside s.place.key.shape x → testAt φ s x = k

/-- A continuous test function, level on every face that lets charge of the kind pass or holds it. -/
structure Testing (S : Setup n ι) (f : FieldT) (φ : Test n ι) : Prop where
  inner : ∀ q ∈ S.interior, q.1 = none → ∃ s, q.2.s2 = some s ∧ ∀ x, OnFace q.2 x → testAt φ q.2.s1 x = testAt φ s x
  walls : ∀ q ∈ S.interior, ∀ c, q.1 = some c → Holds f c → Level φ q.2.s1 ∧ ∀ s ∈ q.2.s2, Level φ s
  outer : ∀ q ∈ S.bdr, ∀ c, q.1 = some c → Holds f c → Level φ q.2.s1

/-- `∫ v · grad φ` over an element. -/
noncomputable def pairing (c : Cell n ι) (φ : Poly (n + 1) ℝ) (v : Dir → ι → ℝ) : ℝ :=
  ∑ d : Dir, integral c.shape (onElem c.e (v d) * bind₁ c.e.geom (ddx d φ) * c.e.jac.det)

/-- Charge as the test function sees it: `∫ φ div (ε E) = -∫ ε E · grad φ`, and the same of `μ H`. -/
noncomputable def charge (S : Setup n ι) (ms : List (Int × Material ℝ)) (f : FieldT) (φ : Test n ι) (u : State ι ℝ) : ℝ :=
  -(S.cells.map fun c => matOf f (materialOf ms c.toCell) * pairing c (φ c.e) (u f)).sum

/-- What the currents in the conductors bring: `∫ σ E · grad φ`. -/
noncomputable def conduction (S : Setup n ι) (ms : List (Int × Material ℝ)) (φ : Test n ι) (u : State ι ℝ) : ℝ :=
  (S.cells.map fun c => (materialOf ms c.toCell).sigma * pairing c (φ c.e) (u .E)).sum

end Dgtd.Straight.Spec
