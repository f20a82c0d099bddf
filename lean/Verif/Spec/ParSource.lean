/-
Specification: a case with plane waves split among ranks, and what it means to neglect weak waves.
-/
import Verif.Spec.Par
import Verif.Model.ParSource

namespace Dgtd.Par.Spec

open Dgtd.Op Dgtd.Par

variable {ι K : Type} [Field K] [LinearOrder K]
variable {R : Type} [DecidableEq R] {N G : R → Nat}

/-- The ranks hold the case `C`: the problem is split, and both sides of every total-field face are on the same rank. -/
structure SplitCase (C : Case ι K) (Q : (r : R) → RankCase (N r) (G r) K)
    (src : (r : R) → Fin (G r) → (q : R) × Fin (N q)) (num : (r : R) → Fin (N r + G r) → ι) (side1 side2 : Face ι K → R) :
    Prop where
  prob : Split C.prob (fun r => (Q r).prob) src num side1 side2
  tf_uncut : ∀ q ∈ C.interior, q.tf = true → side1 q.face = side2 q.face
  /-- the total-field faces between elements of a rank -/
  tf : ∀ r, Listed (fun F' F => SameFace (fun k => num r (Fin.castAdd _ k)) F' F) (Q r).own.tfFaces
    (C.tfFaces.filter fun F => side1 F = r)
  /-- the elements next to these faces -/
  sub : ∀ r k, k ∈ (Q r).own.sub ↔ num r (Fin.castAdd _ k) ∈ C.sub
  /-- those of them in the scattered-field region; a rank without source elements need not have this list -/
  sf_some : ∀ r, (Q r).own.sub ≠ [] → ((Q r).own.sfSub = none ↔ C.sfSub = none)
  sf : ∀ r l' l, (Q r).own.sfSub = some l' → C.sfSub = some l → ∀ k, k ∈ l' ↔ num r (Fin.castAdd _ k) ∈ l

/-- `w` is `v` without some values that are smaller than `1e-8`. -/
def Neglects (v w : State ι K) : Prop :=
  ∀ f d i, w f d i = v f d i ∨ (w f d i = 0 ∧ |v f d i| < 1 / 100000000)

end Dgtd.Par.Spec
