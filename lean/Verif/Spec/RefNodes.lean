/-
Specification: places of the nodes of the reference elements of any dimension, as barycentric or cartesian multiples of `1 / p`.
-/
import Mathlib.Data.Fintype.Pi
import Mathlib.Algebra.BigOperators.Fin
import Mathlib.Order.Monotone.Basic

namespace Dgtd.Nodal.Spec

/-- Nodes of a simplex of order `p`: barycentric coordinates in units of `1 / p`.  Face `f` is where coordinate `f` vanishes. -/
abbrev SimplexNode (D p : Nat) := { x : Fin (D + 1) → Fin (p + 1) // ∑ a, (x a).val = p }

/-- Nodes of a box of order `p`: cartesian coordinates in units of `1 / p`. -/
abbrev BoxNode (D p : Nat) := Fin D → Fin (p + 1)

/-- A face of a box: an axis, and the side. -/
abbrev BoxFace (D : Nat) := Fin D × Bool

/-- Where the face is along its axis. -/
def side (p : Nat) : Bool → Fin (p + 1)
  | false => 0
  | true => Fin.last p

/-- `node` lists the nodes of every face, which are those `on` it, in increasing order of their numbers. -/
structure Lists {nF nf n : Nat} (node : Fin nF → Fin nf → Fin n) (on : Fin nF → Fin n → Prop) : Prop where
  mono : ∀ f, StrictMono (node f)
  mem  : ∀ f i, (∃ k, node f k = i) ↔ on f i

end Dgtd.Nodal.Spec
