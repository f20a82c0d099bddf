import Verif.Model.ProbeCfg

/-
Model of how the faces of a near-to-far-field surface are found again on the sub-mesh of the elements around it
(src/components/SubMesher.cpp:310-357, src/components/FarField.cpp:112-118), by boundary attributes.
`CreateFromDomain` and `BuildFaceMap` are MFEM's: the sub-mesh is a parameter with its map of faces, its boundary
elements and the attributes they start with.
-/

namespace Dgtd.ChildBdr

open Dgtd

/-- What is read of the parent: the attribute of each boundary element, and `GetFaceToBdrElMap()`, the boundary element
of each face (-1 for none). (src/components/SubMesher.cpp:312-316) -/
structure Parent where
  bdrAttr : List Int
  faceToBdr : List Int
  deriving DecidableEq, Repr

/-- What is read of the sub-mesh: `BuildFaceMap`, the face of the parent of each of its faces, its own
`GetFaceToBdrElMap()`, and the attributes of its boundary elements. (src/components/SubMesher.cpp:313-322) -/
structure Child where
  faceMap : List Nat
  faceToBdr : List Int
  bdrAttr : List Int
  deriving DecidableEq, Repr

/-- `BdrCond::NearToFarField`. (src/components/Types.h:52) -/
def nearToFarField : Int := 201

/-- `bdr_attributes.Max()`. (src/components/FarField.cpp:123, src/solver/ProbesManager.cpp:533) -/
def maxAttr (attrs : List Int) : Nat := (attrs.map Int.toNat).foldr max 0

/-- src/components/SubMesher.cpp:317-322: the boundary element of the sub-mesh for boundary element `be` of the parent;
the three `continue`s give `none`. -/
def target (P : Parent) (C : Child) (be : Nat) : Option Nat := do
  let pf ← P.faceToBdr.findIdx? (fun x => x == (be : Int))
  let cf ← C.faceMap.findIdx? (fun x => x == pf)
  let b ← C.faceToBdr[cf]?
  if b < 0 then none else some b.toNat

/-- src/components/SubMesher.cpp:315-324: the loop body; `none` is a read outside of the marker. -/
def visit (P : Parent) (C : Child) (marker : List Nat) (cond : Int) (attrs : List Int) (be : Nat) : Option (List Int) := do
  let a ← P.bdrAttr[be]?
  let mk ← if 1 ≤ a then marker[(a - 1).toNat]? else none
  if mk = 1 then
    match target P C be with
    | some b => pure (attrs.set b cond)
    | none => pure attrs
  else pure attrs

/-- src/components/SubMesher.cpp:310-326 `setBoundaryAttributesInChild`: the attributes of the sub-mesh afterwards. -/
def setBoundaryAttributes (P : Parent) (C : Child) (marker : List Nat) (cond : Int) : Option (List Int) :=
  (List.range P.bdrAttr.length).foldlM (visit P C marker cond) C.bdrAttr

/-- src/components/FarField.cpp:112-118 `getNearToFarFieldMarker`; `none` is a write outside of the array. -/
def farMarker (n : Nat) : Option (List Nat) :=
  if nearToFarField.toNat ≤ n then some ((List.replicate n 0).set (nearToFarField - 1).toNat 1) else none

/-- The boundary elements of the sub-mesh over which the far field is integrated and which the surface exporter writes.
(src/components/FarField.cpp:120-160, src/components/RCSSurfaceExporter.cpp:45-55, 83-96) -/
def farFaces (attrs : List Int) : Option (List Nat) := do
  let m ← farMarker (maxAttr attrs)
  pure ((List.range attrs.length).filter fun b =>
    match attrs[b]? with
    | some a => m[(a - 1).toNat]? == some 1
    | none => false)

/-- From the tags of a probe to its faces. (src/solver/ProbesManager.cpp:531-548, src/components/SubMesher.cpp:776-798) -/
def surfaceFaces (P : Parent) (C : Child) (tags : List Int) : Option (List Nat) := do
  let marker ← (ProbeCfg.surfaceMarker (maxAttr P.bdrAttr) tags).toOption
  let attrs ← setBoundaryAttributes P C marker nearToFarField
  farFaces attrs

end Dgtd.ChildBdr
