/-
Specification: saw-toothed electric fields in closed metallic boxes, and what the automatic time step is told about them.
-/
import Verif.Spec.Cfl

namespace Dgtd.Galerkin.Spec
open MvPolynomial Dgtd.Op Dgtd.Op.Spec Dgtd.Galerkin
open Dgtd.Config (Material)

variable {n : Nat} {ι : Type}

/-- Vacuum in a closed metallic box: no surfaces inside, electric conductors all around. -/
structure ClosedBox (S : Setup n ι) (ms : List (Int × Material ℝ)) : Prop where
  vacuum : ∀ c ∈ S.cells, materialOf ms c = ⟨1, 1, 0⟩
  inside : ∀ q ∈ S.interior, q.1 = none ∧ q.2.s2 ≠ none
  walls : ∀ q ∈ S.bdr, q.1 = some .PEC

/-- On every element `E_z` is `Q`; there is no other field. -/
def OnlyEz (S : Setup n ι) (Q : Elem n ι ℝ → Poly (n + 1) ℝ) (u : State ι ℝ) : Prop :=
  ∀ c ∈ S.cells, ∀ f d, onElem c.e (u f d) = if f = .E ∧ d = 2 then Q c.e else 0

/-! ### segments -/

/-- A mesh of segments of the same length. -/
def EvenLine (S : Setup 0 ι) (h : ℝ) : Prop := ∀ c ∈ S.cells, c.e.jac.det = C h

/-- The segments as the automatic time step sees them at order one: two nodes each, the ends. -/
def SeenLine (m : TimeStep.Setup) (S : Setup 0 ι) : Prop :=
  m.dim = 1 ∧ m.elems ≠ [] ∧
    ∀ el ∈ m.elems, ∃ c ∈ S.cells, el.nodes = [eval (fun _ => 0) (c.e.geom 0), eval (fun _ => 1) (c.e.geom 0)]

/-! ### triangles -/

/-- Position of a point of a triangle. -/
noncomputable def corner (e : Elem 1 ι ℝ) (x y : ℝ) : TimeStep.Pt := ⟨eval ![x, y] (e.geom 0), eval ![x, y] (e.geom 1), 0⟩

/-- Isosceles triangles, all with legs `a`, base `b` and twice the area `h`; the legs meet at the reference origin. -/
def Isosceles (S : Setup 1 ι) (a b h : ℝ) : Prop :=
  ∀ c ∈ S.cells, TimeStep.Spec.span (corner c.e 0 0) (corner c.e 1 0) = a ∧ TimeStep.Spec.span (corner c.e 0 0) (corner c.e 0 1) = a ∧
    TimeStep.Spec.span (corner c.e 1 0) (corner c.e 0 1) = b ∧ c.e.jac.det = C h

/-- Triangles as the automatic time step sees them: their areas and the lengths of their sides. -/
def SeenTriangles (m : TimeStep.Setup) (a b h : ℝ) : Prop :=
  m.dim = 2 ∧ m.elems ≠ [] ∧
    ∀ el ∈ m.elems, el.shape = .triangle ∧ el.volume = h / 2 ∧ (el.edges.map fun e => TimeStep.Spec.span e.1 e.2).sum = a + a + b

/-- The field changes sign, and only that, across the faces inside. -/
def Alternates (S : Setup n ι) (u : State ι ℝ) : Prop :=
  ∀ q ∈ S.interior, ∀ s ∈ q.2.s2, ∀ x,
    eval x (s.restrict (onElem s.e (u .E 2))) = -eval x (q.2.s1.restrict (onElem q.2.s1.e (u .E 2)))

end Dgtd.Galerkin.Spec
