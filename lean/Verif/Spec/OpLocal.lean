/-
Specification: which parts of the mesh act on which.
-/
import Verif.Spec.OpFrame

namespace Dgtd.Op.Spec

open Dgtd.Op

variable {ι K ε : Type} [Fintype ι] [DecidableEq ι] [Field K] [LinearOrder K]

/-- The unknowns belong to elements (`el`): no matrix joins two elements, each side of a face is one element, exterior faces have one
side. -/
structure Elementwise (P : Prob ι K) (el : ι → ε) : Prop where
  minv  : ∀ f r c, el r ≠ el c → P.Minv f r c = 0
  msig  : ∀ r c, el r ≠ el c → P.Msig r c = 0
  deriv : ∀ d r c, el r ≠ el c → P.D d r c = 0
  side1 : ∀ F ∈ allFaces P, ∀ i j, i < F.ndof1 → j < F.ndof1 → el (F.dofs i) = el (F.dofs j)
  side2 : ∀ F ∈ allFaces P, ∀ i j, i < F.ndof2 → j < F.ndof2 → el (F.dofs (F.ndof1 + i)) = el (F.dofs (F.ndof1 + j))
  bdr   : ∀ q ∈ P.bdr, q.2.ndof2 = 0

/-- Two elements on either side of a face that is not a wall. -/
def Touch (P : Prob ι K) (el : ι → ε) (a b : ε) : Prop :=
  ∃ q ∈ P.interior, q.1 = none ∧ ∃ i j, i < q.2.ndof1 + q.2.ndof2 ∧ j < q.2.ndof1 + q.2.ndof2 ∧
    el (q.2.dofs i) = a ∧ el (q.2.dofs j) = b

/-- From element `a` one reaches element `b` through at most `k` faces that are not walls. -/
def Within (P : Prob ι K) (el : ι → ε) : Nat → ε → ε → Prop
  | 0, a, b => a = b
  | k + 1, a, b => Within P el k a b ∨ ∃ c, Touch P el a c ∧ Within P el k c b

/-- The elements fall into two parts, `col`, and only walls lie between them. -/
def Walled (P : Prob ι K) (el : ι → ε) (col : ε → Bool) : Prop := ∀ a b, Touch P el a b → col a = col b

/-- The fields of one part, with nothing in the other. -/
def part (el : ι → ε) (col : ε → Bool) (b : Bool) (u : State ι K) : State ι K := fun f d i => if col (el i) = b then u f d i else 0

end Dgtd.Op.Spec
