import Verif.Model.NodeNormal
import Mathlib.Data.Real.Basic
import Mathlib.Data.Fin.VecNotation

/-
Vocabulary for the normals at the nodes of thin-layer faces.
-/

namespace Dgtd.NodeNormal.Spec

variable {F K : Type} [Field K] [LinearOrder K]

/-- Points of a reference element. -/
def InCube (x : Fin 3 → K) : Prop := ∀ d, 0 ≤ x d ∧ x d ≤ 1

/-- A usable rule of a face: it has points, and they lie in the reference element. -/
structure Rule (loc : F → Fin 3 → K) (rule : List F) : Prop where
  nonempty : rule ≠ []
  inside : ∀ s ∈ rule, InCube (loc s)

/-- Two normals with the same direction. -/
def SameDirection (a b : Fin 3 → K) : Prop := ∃ c, 0 < c ∧ ∀ d, a d = c * b d

/-- The edge of an element along the parabola `y = x²`, whose tangent at `s` is `(1, 2 s)`: place in the reference
element and normal. -/
def parabolaLoc (s : ℝ) : Fin 3 → ℝ := ![s, 0, 0]

/-- The normal of the parabola at `s`. -/
def parabolaNormal (s : ℝ) : Fin 3 → ℝ := ![2 * s, -1, 0]

end Dgtd.NodeNormal.Spec
