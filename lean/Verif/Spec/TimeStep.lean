import Verif.Model.TimeStep

/-
Specification side of option validation and of the automatic time step.
-/
namespace Dgtd.TimeStep.Spec
open Dgtd.Config (EvolOp Err)

noncomputable section

/-- Options with which a solver may be built. -/
def Valid (o : Options) : Prop := 0 ≤ o.order ∧ 0 ≤ o.finalTime ∧ 0 < o.cfl

/-- Distance of two points. -/
def span (a b : Pt) : ℝ := Real.sqrt ((a.x - b.x) ^ 2 + (a.y - b.y) ^ 2 + (a.z - b.z) ^ 2)

/-- Area of a triangle: half the norm of the cross product of two sides. -/
def triangle (a b c : Pt) : ℝ :=
  Real.sqrt (((b.y - a.y) * (c.z - a.z) - (b.z - a.z) * (c.y - a.y)) ^ 2 +
    ((b.z - a.z) * (c.x - a.x) - (b.x - a.x) * (c.z - a.z)) ^ 2 +
    ((b.x - a.x) * (c.y - a.y) - (b.y - a.y) * (c.x - a.x)) ^ 2) / 2

/-- Area of a face: one triangle, or the two triangles on a diagonal. -/
def area (f : Face) : ℝ :=
  match f.d with
  | none => triangle f.a f.b f.c
  | some d => triangle f.a f.b f.c + triangle f.a f.c d

/-- A parallelogram: opposite sides are equal. -/
def Parallelogram (f : Face) : Prop :=
  ∃ d, f.d = some d ∧ d.x - f.a.x = f.c.x - f.b.x ∧ d.y - f.a.y = f.c.y - f.b.y ∧ d.z - f.a.z = f.c.z - f.b.z

/-- Measure of the border of an element: perimeter in the plane, surface in space. -/
def border (dim : Nat) (e : Elem) : ℝ :=
  if dim = 2 then (e.edges.map fun p => span p.1 p.2).sum else (e.faces.map area).sum

/-- Thickness of an element: twice its measure over that of its border (for a triangle the radius of the inscribed
circle). -/
def thickness (dim : Nat) (e : Elem) : ℝ := 2 * e.volume / border dim e

/-- Elements of the kinds the code knows: in space tetrahedra with triangular faces, or only hexahedra, whose faces are
parallelograms. -/
def Known (m : Setup) : Prop :=
  m.dim = 3 → (∀ e ∈ m.elems, ∀ f ∈ e.faces, f.d = none) ∨
    (∀ e ∈ m.elems, e.shape = .hexahedron ∧ ∀ f ∈ e.faces, Parallelogram f)

/-- A usable mesh: it has elements, all of them with positive measure and border. -/
def Usable (m : Setup) : Prop :=
  m.elems ≠ [] ∧ ∀ e ∈ m.elems, 0 < e.volume ∧ 0 < border m.dim e

/-- Nodes of an element of a one-dimensional mesh: distinct, or a single one and a positive size. -/
def Usable1 (m : Setup) : Prop :=
  ∀ e ∈ m.elems, (e.nodes.length = 1 ∧ 0 < e.size) ∨ (e.nodes.length ≠ 1 ∧ e.nodes.Nodup)

/-- The nodes of the reference segment of length two, of order at least one: at least two, the first two of them at
positive distance `r`. -/
def FirstGap (lobatto : Nat → List ℝ) (p : Nat) (r : ℝ) : Prop :=
  0 < r ∧ ∃ a b rest, lobatto p = a :: b :: rest ∧ |a - b| = r

end

end Dgtd.TimeStep.Spec
