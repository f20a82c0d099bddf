/-
Specification: electric and magnetic charges as test functions see them.
-/
import Verif.Spec.Polynomial

namespace Dgtd.Galerkin.Spec
open MvPolynomial Dgtd.Op Dgtd.Op.Spec Dgtd.Galerkin
open Dgtd.Config (Material)

variable {n : Nat} {ι : Type}

/-- A test function: on every element a polynomial of the position. -/
abbrev Test (n : Nat) (ι : Type) := Elem n ι ℝ → Poly (n + 1) ℝ

/-- Its value at a point of a face, seen from one side. -/
noncomputable def testAt (φ : Test n ι) (s : Side n ι ℝ) (x : Fin n → ℝ) : ℝ := eval (pos s x) (φ s.e)

/-- The test function does not vary on a face, seen from one side. -/
def Level (φ : Test n ι) (s : Side n ι ℝ) : Prop := ∃ k, ∀ x, InSimplex x → testAt φ s x = k

/-- The conditions that let charge of a kind pass or hold it: all but magnetic walls for electric and electric walls for magnetic charge. -/
def Holds : FieldT → BdrCond → Prop
  | .E, .PMC => False
  | .H, .PEC => False
  | _, _ => True

/-- A continuous test function, level on every face that lets charge of the kind pass or holds it. -/
structure Testing (S : Setup n ι) (f : FieldT) (φ : Test n ι) : Prop where
  inner : ∀ q ∈ S.interior, q.1 = none → ∃ s, q.2.s2 = some s ∧ ∀ x, InSimplex x → testAt φ q.2.s1 x = testAt φ s x
  walls : ∀ q ∈ S.interior, ∀ c, q.1 = some c → Holds f c → Level φ q.2.s1 ∧ ∀ s ∈ q.2.s2, Level φ s
  outer : ∀ q ∈ S.bdr, ∀ c, q.1 = some c → Holds f c → Level φ q.2.s1

/-- The gradient of the test function, as an electric or a magnetic field. -/
noncomputable def gradient (f : FieldT) (φ : Test n ι) : PField n ι := fun e g d => if g = f then ddx d (φ e) else 0

/-- `∫ v · grad φ` over an element. -/
noncomputable def pairing (e : Elem n ι ℝ) (φ : Poly (n + 1) ℝ) (v : Dir → ι → ℝ) : ℝ :=
  ∑ d : Dir, integral (n + 1) (onElem e (v d) * bind₁ e.geom (ddx d φ) * e.jac.det)

/-- Permittivity or permeability. -/
def matOf : FieldT → Material ℝ → ℝ
  | .E, m => m.eps
  | .H, m => m.mu

/-- Charge as the test function sees it: `∫ φ div (ε E) = -∫ ε E · grad φ`, and the same of `μ H`. -/
noncomputable def charge (S : Setup n ι) (ms : List (Int × Material ℝ)) (f : FieldT) (φ : Test n ι) (u : State ι ℝ) : ℝ :=
  -(S.cells.map fun c => matOf f (materialOf ms c) * pairing c.e (φ c.e) (u f)).sum

/-- What the currents in the conductors bring: `∫ σ E · grad φ`. -/
noncomputable def conduction (S : Setup n ι) (ms : List (Int × Material ℝ)) (φ : Test n ι) (u : State ι ℝ) : ℝ :=
  (S.cells.map fun c => (materialOf ms c).sigma * pairing c.e (φ c.e) (u .E)).sum

end Dgtd.Galerkin.Spec
