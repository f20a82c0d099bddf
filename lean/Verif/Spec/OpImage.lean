/-
Specification of images: a body and its mirror image behind a plane, and the half of it in front of the plane with a wall there.
-/
import Verif.Spec.Op
import Mathlib.Data.Matrix.Block

namespace Dgtd.Op.Spec

open Dgtd.Op

variable {ι K : Type} [Field K]

/-- The walls that can stand in a plane of symmetry. -/
inductive Wall
  | electric
  | magnetic

/-- Their conditions. -/
def Wall.cond : Wall → BdrCond
  | .electric => .PEC
  | .magnetic => .PMC

/-- Sign of the components along the plane in the image: the field that vanishes along the wall changes its sign. -/
def Wall.sign : Wall → FieldT → K
  | .electric, .E => -1
  | .electric, .H => 1
  | .magnetic, .E => 1
  | .magnetic, .H => -1

/-- Sign of a coordinate in the mirror whose plane is perpendicular to the axis `a`. -/
def mirrorSign (a d : Dir) : K := if d = a then -1 else 1

/-- The mirror image of a face: the same shape functions, the normal mirrored. -/
def imageFace (a : Dir) (F : Face ι K) : Face (ι ⊕ ι) K :=
  { F with
    dofs := fun i => .inr (F.dofs i)
    pts := F.pts.map fun p => { p with nor := p.nor.mapIdx fun i x => if i = a.val then -x else x } }

/-- The face itself, seen in the whole body. -/
def ownFace (F : Face ι K) : Face (ι ⊕ ι) K := { F with dofs := fun i => .inl (F.dofs i) }

/-- A face in the plane: it separates an element from its image. -/
def planeFace (F : Face ι K) : Face (ι ⊕ ι) K :=
  { ndof1 := F.ndof1
    ndof2 := F.ndof1
    dofs := fun i => if i < F.ndof1 then .inl (F.dofs i) else .inr (F.dofs (i - F.ndof1))
    pts := F.pts.map fun p => { p with sh2 := p.sh1 } }

/-- Half a body with a wall in the plane of symmetry; `plane` are the faces in the plane. -/
def halfProb (P : Prob ι K) (plane : List (Face ι K)) (w : Wall) : Prob ι K :=
  { P with bdr := plane.map (fun F => (some w.cond, F)) ++ P.bdr }

/-- The whole body. -/
def wholeProb (a : Dir) (P : Prob ι K) (plane : List (Face ι K)) : Prob (ι ⊕ ι) K :=
  { dim := P.dim
    alpha := P.alpha
    interior := P.interior.map (fun q => (q.1, ownFace q.2)) ++ P.interior.map (fun q => (q.1, imageFace a q.2)) ++
      plane.map fun F => (none, planeFace F)
    bdr := P.bdr.map (fun q => (q.1, ownFace q.2)) ++ P.bdr.map fun q => (q.1, imageFace a q.2)
    Minv := fun f => Matrix.fromBlocks (P.Minv f) 0 0 (P.Minv f)
    Msig := Matrix.fromBlocks P.Msig 0 0 P.Msig
    D := fun d => Matrix.fromBlocks (P.D d) 0 0 ((mirrorSign a d : K) • P.D d) }

/-- Fields in the whole body that are symmetric about the wall. -/
def unfolded (a : Dir) (w : Wall) (u : State ι K) : State (ι ⊕ ι) K := fun f d =>
  Sum.elim (u f d) fun i => w.sign f * mirrorSign a d * u f d i

/-- The faces lie in a plane perpendicular to the axis `a`. -/
def InPlane (a : Dir) (plane : List (Face ι K)) : Prop :=
  ∀ F ∈ plane, F.ndof2 = 0 ∧ ∀ p ∈ F.pts, ∀ d, d ≠ a → normalTerm p.nor d = 0

end Dgtd.Op.Spec
