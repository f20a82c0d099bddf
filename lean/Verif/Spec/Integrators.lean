/-
Specification of the face integrators: weighted sums over all quadrature points of products of shape
functions.
-/
import Verif.Model.Integrators

namespace Dgtd.Op.Spec

open Dgtd.Op

variable {ι K : Type} [Fintype ι] [DecidableEq ι] [Field K] [LinearOrder K]

/-- Local shape function `i` of the pair of elements, from its own side. -/
def shp (f : Face ι K) (p : Pt K) (i : Nat) : K := if i < f.ndof1 then p.sh1 i else p.sh2 (i - f.ndof1)

/-- Its contribution to the jump `[v] = v₁ - v₂`. -/
def jmp (f : Face ι K) (p : Pt K) (i : Nat) : K := if i < f.ndof1 then p.sh1 i else -p.sh2 (i - f.ndof1)

/-- Both local indices on the same side. -/
def sameSide (f : Face ι K) (i j : Nat) : K := if (i < f.ndof1) = (j < f.ndof1) then 1 else 0

/-- `+1` on the first side, `-1` on the second. -/
def side (f : Face ι K) (i : Nat) : K := if i < f.ndof1 then 1 else -1

/-- Quadrature: sum over all points. -/
def quad (f : Face ι K) (g : Pt K → K) : K := (f.pts.map g).sum

/-- Matrix of the partial derivative in direction `x`; fields do not vary along directions beyond the mesh
dimension. -/
def partialD (P : Prob ι K) (x : Dir) : Matrix ι ι K := if x.val < P.dim then P.D x else 0

end Dgtd.Op.Spec
