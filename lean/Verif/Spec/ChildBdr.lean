import Verif.Model.ChildBdr

/-
Vocabulary for the faces of a near-to-far-field surface.
-/

namespace Dgtd.ChildBdr.Spec

open Dgtd.ChildBdr

/-- Boundary element `b` of the sub-mesh lies on a face of the parent on which the user has drawn a boundary with
attribute `a`. -/
def Drawn (P : Parent) (C : Child) (b : Nat) (a : Int) : Prop :=
  ∃ (f pf be : Nat), C.faceToBdr[f]? = some (b : Int) ∧ C.faceMap[f]? = some pf ∧ P.faceToBdr[pf]? = some (be : Int) ∧
    P.bdrAttr[be]? = some a

/-- Boundary element `b` of the sub-mesh lies on the surface the user chose by its tags. -/
def OnSurface (P : Parent) (C : Child) (tags : List Int) (b : Nat) : Prop := ∃ a ∈ tags, Drawn P C b a

/-- The tables describe two meshes: each boundary element has one face, different faces of the sub-mesh are different
faces of the parent, attributes are positive. -/
structure Consistent (P : Parent) (C : Child) : Prop where
  parentOnce : ∀ (i j x : Nat), P.faceToBdr[i]? = some (x : Int) → P.faceToBdr[j]? = some (x : Int) → i = j
  faceOnce : ∀ (i j x : Nat), C.faceMap[i]? = some x → C.faceMap[j]? = some x → i = j
  childOnce : ∀ (i j x : Nat), C.faceToBdr[i]? = some (x : Int) → C.faceToBdr[j]? = some (x : Int) → i = j
  childIn : ∀ (f b : Nat), C.faceToBdr[f]? = some (b : Int) → b < C.bdrAttr.length
  parentPos : ∀ a ∈ P.bdrAttr, 1 ≤ a
  childPos : ∀ a ∈ C.bdrAttr, 1 ≤ a

/-- How the boundary elements of a sub-mesh get their first attributes: that of the boundary drawn on the face in the
parent, and the attribute `g` where the parent has none (the cut through the parent). -/
def Inherits (P : Parent) (C : Child) (g : Int) : Prop :=
  ∀ (b : Nat) (a : Int), C.bdrAttr[b]? = some a → Drawn P C b a ∨ ((¬ ∃ a', Drawn P C b a') ∧ a = g)

end Dgtd.ChildBdr.Spec
