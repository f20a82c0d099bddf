import Verif.Model.Nodal
import Mathlib.Algebra.BigOperators.Group.Finset.Basic
import Mathlib.Algebra.BigOperators.Ring.Finset

/-
Specification side of the nodal operator: energy, summation by parts, and what a conforming mesh is.
-/
namespace Dgtd.Nodal.Spec

open Finset

variable {K : Type} [Field K] [LinearOrder K]

def dot (a b : V3 K) : K := a 0 * b 0 + a 1 * b 1 + a 2 * b 2

def cross (a b : V3 K) : V3 K :=
  ![a 1 * b 2 - a 2 * b 1, a 2 * b 0 - a 0 * b 2, a 0 * b 1 - a 1 * b 0]

/-- Squared length of the part of a vector orthogonal to the unit vector `n`. -/
def tang2 (n d : V3 K) : K := dot d d - dot n d * dot n d

/-- Contribution of one face node to the rate of the energy, per unit weight: the flow of the fields of the element through
the face and the work of the flux. -/
def face (alpha : K) (n E H dE dH : V3 K) : K :=
  dot n (cross H E) + (dot E (fluxE alpha n dE dH) + dot H (fluxH alpha n dE dH)) / 2

/-- The inner product of a mass matrix on `N` nodes. -/
def inner (N : Nat) (M : Nat → Nat → K) (u v : Nat → K) : K :=
  ∑ i ∈ range N, ∑ j ∈ range N, M i j * (u i * v j)

/-- Time derivative of the energy `½ (E, E) + ½ (H, H)` when the time derivatives of the fields are `dE` and `dH`. -/
def rate (N : Nat) (M : Nat → Nat → K) (u : Fields K) (dE dH : Fin 3 → Nat → K) : K :=
  ∑ x : Fin 3, (inner N M (fun i => u.e i x) (dE x) + inner N M (fun i => u.h i x) (dH x))

/-- The matrices are a discretisation with summation by parts on faces with nodes `node p`, weights `w p` and normals `n p`:
derivatives integrate by parts exactly and the lift is the adjoint of the trace (with the half of the code). -/
structure SBP (N P : Nat) (M : Nat → Nat → K) (o : Ops K) (node : Nat → Nat) (w : Nat → K) (n : Nat → V3 K) : Prop where
  symm : ∀ i j, M i j = M j i
  parts : ∀ d u v, inner N M u (o.D d v) + inner N M (o.D d u) v = ∑ p ∈ range P, w p * (n p d * (u (node p) * v (node p)))
  lift : ∀ u f, inner N M u (o.lift f) = ∑ p ∈ range P, w p * (u (node p) * f p) / 2

/-- A conforming mesh with all its outer faces in exactly one of the lists of conditions and no condition inside: every
position below `P` either has a mate, which sees the same two nodes the other way round with the opposite normal and the same
weight, or is on the boundary and is listed once, with its node. -/
structure Conforming (P : Nat) (c : Nat → Nat × Nat) (mate : Nat → Nat) (w : Nat → K) (n : Nat → V3 K) (b : BdrMaps) : Prop where
  weight : ∀ p < P, 0 ≤ w p
  unit : ∀ p < P, dot (n p) (n p) = 1
  mate_lt : ∀ p < P, mate p < P
  mate_mate : ∀ p < P, mate (mate p) = p
  inside : ∀ p < P, mate p ≠ p → (c (mate p) = ((c p).2, (c p).1) ∧ (∀ d, n (mate p) d = - n p d) ∧ w (mate p) = w p) ∧
    p ∉ (b.pec ++ b.pmc ++ b.sma).map Prod.fst
  outside : ∀ p < P, mate p = p → (p, (c p).1) ∈ b.pec ++ b.pmc ++ b.sma
  once : ((b.pec ++ b.pmc ++ b.sma).map Prod.fst).Nodup
  noInt : b.ipec = [] ∧ b.ipmc = [] ∧ b.isma = []

/-- The field of all the total-field sources together. -/
def incident (sources : List (Option (Fields K))) : Fields K where
  e := fun i x => ((sources.filterMap id).map fun f => f.e i x).sum
  h := fun i x => ((sources.filterMap id).map fun f => f.h i x).sum

/-- The positions listed by the conditions, with the interior ones. -/
def listed (b : BdrMaps) : List Nat :=
  (b.pec ++ b.pmc ++ b.sma).map Prod.fst ++ (b.ipec ++ b.ipmc ++ b.isma).flatMap fun q => [q.pos1, q.pos2]

/-- The positions of the nodes of the total-field surface, on both sides. -/
def positions (l : List TfNode) : List Nat := l.flatMap fun q => [q.sf, q.tf]

end Dgtd.Nodal.Spec
