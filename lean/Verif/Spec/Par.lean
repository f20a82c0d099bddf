/-
Specification: what it means that the problems of several ranks are a split of one problem.
-/
import Verif.Model.Par
import Mathlib.Data.List.Perm.Basic

namespace Dgtd.Par.Spec

open Dgtd.Op Dgtd.Par

variable {ι κ K : Type} [Field K]

/-- A quadrature point seen from the other side of the face. -/
def flipPt (p : Pt K) : Pt K :=
  { w := p.w
    W := p.W
    nor := p.nor.map fun x => -x
    sh1 := p.sh2
    sh2 := p.sh1 }

/-- A face seen from the other side. -/
def otherSide (F : Face ι K) : Face ι K :=
  { ndof1 := F.ndof2
    ndof2 := F.ndof1
    dofs := fun i => if i < F.ndof2 then F.dofs (F.ndof1 + i) else F.dofs (i - F.ndof2)
    pts := F.pts.map flipPt }

/-- `F'` is the face `F` with the degrees of freedom renumbered; its quadrature points may come in another order. -/
structure SameFace (num : κ → ι) (F' : Face κ K) (F : Face ι K) : Prop where
  n1 : F'.ndof1 = F.ndof1
  n2 : F'.ndof2 = F.ndof2
  dofs : ∀ i, i < F.ndof1 + F.ndof2 → num (F'.dofs i) = F.dofs i
  pts : F'.pts.Perm F.pts

/-- The elements of a list, in any order and each related to one of the other list. -/
def Listed {α β : Type} (rel : α → β → Prop) (l : List α) (l' : List β) : Prop :=
  ∃ m, m.Perm l ∧ List.Forall₂ rel m l'

variable {R : Type} [DecidableEq R] {N G : R → Nat}

/-- The ranks hold the problem `P`.  `num r` gives the number in the whole problem of a degree of freedom of rank `r`
(first its own, then those of its neighbours); `src` is the table of the exchange; `side1` and `side2` are the ranks
that own the elements on the two sides of a face. -/
structure Split (P : Prob ι K) (Q : (r : R) → RankProb (N r) (G r) K) (src : (r : R) → Fin (G r) → (q : R) × Fin (N q))
    (num : (r : R) → Fin (N r + G r) → ι) (side1 side2 : Face ι K → R) : Prop where
  /-- every degree of freedom is owned by exactly one rank, under one number -/
  owned : ∀ i, ∃! p : (r : R) × Fin (N r), num p.1 (Fin.castAdd _ p.2) = i
  /-- the exchange delivers the values of the degrees of freedom that the neighbour numbers stand for -/
  ghost : ∀ r j, num (src r j).1 (Fin.castAdd _ (src r j).2) = num r (Fin.natAdd _ j)
  ghost_other : ∀ r j, (src r j).1 ≠ r
  dim : ∀ r, (Q r).dim = P.dim
  alpha : ∀ r, (Q r).alpha = P.alpha
  intBdr : ∀ r, (Q r).intBdr = P.interior.any fun p => p.1.isSome
  /-- the degrees of freedom on each side of a face belong to the rank of that side -/
  first : ∀ q ∈ P.interior ++ P.bdr, ∀ i, i < q.2.ndof1 → ∃ k, num (side1 q.2) (Fin.castAdd _ k) = q.2.dofs i
  second : ∀ q ∈ P.interior, ∀ i, i < q.2.ndof2 → ∃ k, num (side2 q.2) (Fin.castAdd _ k) = q.2.dofs (q.2.ndof1 + i)
  one_side : ∀ q ∈ P.bdr, q.2.ndof2 = 0
  /-- both sides of a face with an interior condition are on the same rank -/
  uncut : ∀ q ∈ P.interior, q.1 ≠ none → side1 q.2 = side2 q.2
  /-- the faces between elements of a rank -/
  interior : ∀ r, Listed (fun q' q => q'.1 = q.1 ∧ SameFace (fun k => num r (Fin.castAdd _ k)) q'.2 q.2)
    (Q r).interior (P.interior.filter fun q => side1 q.2 = r ∧ side2 q.2 = r)
  /-- the faces towards other ranks, seen from the own side -/
  shared1 : ∀ r, Listed (fun F' q => SameFace (num r) F' (if side1 q.2 = r then q.2 else otherSide q.2))
    (Q r).shared (P.interior.filter fun q => ¬ (side1 q.2 = r ↔ side2 q.2 = r))
  bdr : ∀ r, Listed (fun q' q => q'.1 = q.1 ∧ SameFace (fun k => num r (Fin.castAdd _ k)) q'.2 q.2)
    (Q r).bdr (P.bdr.filter fun q => side1 q.2 = r)
  /-- the mass, conductivity and derivative matrices do not couple different ranks -/
  Minv : ∀ r f k k', (Q r).Minv f k k' = P.Minv f (num r (Fin.castAdd _ k)) (num r (Fin.castAdd _ k'))
  Msig : ∀ r k k', (Q r).Msig k k' = P.Msig (num r (Fin.castAdd _ k)) (num r (Fin.castAdd _ k'))
  D : ∀ r d k k', (Q r).D d k k' = P.D d (num r (Fin.castAdd _ k)) (num r (Fin.castAdd _ k'))
  apart : ∀ r k i, (∀ k', num r (Fin.castAdd _ k') ≠ i) → ∀ f d,
    P.Minv f (num r (Fin.castAdd _ k)) i = 0 ∧ P.Msig (num r (Fin.castAdd _ k)) i = 0 ∧
      P.D d (num r (Fin.castAdd _ k)) i = 0

/-- The fields of the whole problem handed out to the ranks. -/
def scatter (num : (r : R) → Fin (N r + G r) → ι) (u : State ι K) : PState N K := fun r f d k =>
  u f d (num r (Fin.castAdd _ k))

end Dgtd.Par.Spec
