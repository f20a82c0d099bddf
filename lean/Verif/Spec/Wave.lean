import Verif.Model.Wave
import Mathlib.Analysis.Calculus.Deriv.Basic

/-
Specification side of the incident fields: Maxwell's equations in vacuum for Cartesian components of functions of
position and time, with partial derivatives.
-/
namespace Dgtd.Wave.Spec
open Dgtd.Config (FieldType)

/-- A vector field depending on position and time. -/
abbrev VField := ℝ → ℝ → ℝ → ℝ → Fin 3 → ℝ

/-- `D` holds the four partial derivatives (x, y, z, t) of a component at a point. -/
structure Partials (f : ℝ → ℝ → ℝ → ℝ → ℝ) (x y z t : ℝ) (dx dy dz dt : ℝ) : Prop where
  hx : HasDerivAt (fun a => f a y z t) dx x
  hy : HasDerivAt (fun a => f x a z t) dy y
  hz : HasDerivAt (fun a => f x y a t) dz z
  ht : HasDerivAt (fun a => f x y z a) dt t

/-- Maxwell's equations in vacuum, with unit speed of light, at a point: the time derivative of `E` is the curl of `H`,
that of `H` is minus the curl of `E`, and both have no divergence. -/
def MaxwellAt (E H : VField) (x y z t : ℝ) : Prop :=
  ∃ De Dh : Fin 3 → Fin 4 → ℝ,
    (∀ c, Partials (fun x y z t => E x y z t c) x y z t (De c 0) (De c 1) (De c 2) (De c 3)) ∧
    (∀ c, Partials (fun x y z t => H x y z t c) x y z t (Dh c 0) (Dh c 1) (Dh c 2) (Dh c 3)) ∧
    De 0 3 = Dh 2 1 - Dh 1 2 ∧ De 1 3 = Dh 0 2 - Dh 2 0 ∧ De 2 3 = Dh 1 0 - Dh 0 1 ∧
    Dh 0 3 = -(De 2 1 - De 1 2) ∧ Dh 1 3 = -(De 0 2 - De 2 0) ∧ Dh 2 3 = -(De 1 0 - De 0 1) ∧
    De 0 0 + De 1 1 + De 2 2 = 0 ∧ Dh 0 0 + Dh 1 1 + Dh 2 2 = 0

/-- A point of an element: a convex combination of its vertices. -/
def InElement (verts : List V3) (p : V3) : Prop :=
  ∃ ws : List ℝ, ws.length = verts.length ∧ (∀ w ∈ ws, 0 ≤ w) ∧ ws.sum = 1 ∧
    ∀ d, p d = (List.zipWith (fun w (v : V3) => w * v d) ws verts).sum

end Dgtd.Wave.Spec
