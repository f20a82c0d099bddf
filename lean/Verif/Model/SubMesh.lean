/-
Model of src/components/SubMesher.cpp: which elements around the total-field surface (and the near-to-far-field surface)
form the sub-meshes, and transfers between a sub-mesh and its parent.

A mesh is its coordinates, the vertices of its elements, the vertices of the local faces of its elements and its boundary
elements.  `double` is an element of an ordered field; rounding is not modelled.  Building the sub-mesh from the selected
attributes is the library's and not modelled beyond the set of its elements.
-/
import Mathlib.Algebra.Order.Field.Basic
import Mathlib.Algebra.Field.Defs
import Mathlib.Data.Fin.VecNotation

namespace Dgtd.SubMesh

/-- src/components/Types.h `SubMeshingMarkers`. (lines 39-44) -/
def TF : Int := 1000
/-- `ScatteredFieldMarker`. (src/components/Types.h:39-44) -/
def SF : Int := 2000
/-- `GlobalSubMeshMarker`. (src/components/Types.h:39-44) -/
def Global : Int := 3000
/-- `NearToFarFieldMarker`. (src/components/Types.h:39-44) -/
def NTFF : Int := 4000

/-- src/components/SubMesher.cpp:6. -/
def NotFound : Int := -1

/-- A boundary element: attribute is marked or not (`marker[attribute - 1] == 1`), its vertices, the vertices of its face in
the order of the mesh, and the elements on its two sides (`getFaceElementTransformation`,
src/components/SubMesher.cpp:8-14; no second element when `Elem2No < 0`). -/
structure BFace where
  marked : Bool
  verts  : List Nat
  fverts : List Nat
  e1     : Nat
  e2     : Option Nat

/-- The parts of a mesh that are read. (src/components/SubMesher.cpp:16-69, 239-290) -/
structure Mesh (K : Type) where
  ne        : Nat
  attr      : Nat → Int
  coord     : Nat → Fin 3 → K
  elemVerts : Nat → List Nat
  elemFaces : Nat → List (List Nat)
  bdr       : List BFace

/-- Attributes of the elements, and the lists `elem_to_face_tf_`, `elem_to_face_sf_`
(src/components/SubMesher.h:45-46). -/
structure St where
  attr : Nat → Int
  tf   : List (Int × Int)
  sf   : List (Int × Int)

/-- `Elem2No`. (src/components/SubMesher.cpp:401, 456, 653, 721) -/
def elem2No (f : BFace) : Int :=
  match f.e2 with
  | some e => e
  | none => -1

/-- `SetAttribute`. (src/components/SubMesher.cpp:403-416, 457-463, 889-892) -/
def setAttr (a : Nat → Int) (e : Nat) (v : Int) : Nat → Int := fun i => if i = e then v else a i

/-- src/components/SubMesher.cpp:399-419 `setAttributeForTagging`. -/
def tag (a : Nat → Int) (f : BFace) (el1tf : Bool) : Nat → Int :=
  match f.e2 with
  | some e2 =>
    if el1tf then setAttr (setAttr a f.e1 TF) e2 SF
    else setAttr (setAttr a f.e1 SF) e2 TF
  | none => if el1tf then setAttr a f.e1 TF else setAttr a f.e1 SF

/-- src/components/SubMesher.cpp:421-441 `storeElementToFaceInformation`. -/
def store (s : St) (f : BFace) (ids : Int × Int) (el1tf : Bool) : St :=
  if ids.2 ≠ NotFound then
    if el1tf then ⟨s.attr, s.tf ++ [((f.e1 : Int), ids.1)], s.sf ++ [(elem2No f, ids.2)]⟩
    else ⟨s.attr, s.tf ++ [(elem2No f, ids.2)], s.sf ++ [((f.e1 : Int), ids.1)]⟩
  else
    if el1tf then ⟨s.attr, s.tf ++ [((f.e1 : Int), ids.1)], s.sf⟩
    else ⟨s.attr, s.tf, s.sf ++ [((f.e1 : Int), ids.1)]⟩

/-- src/components/SubMesher.cpp:443-447 `prepareSubMeshInfo`. -/
def prepare (s : St) (f : BFace) (ids : Int × Int) (el1tf : Bool) : St :=
  store ⟨tag s.attr f el1tf, s.tf, s.sf⟩ f ids el1tf

variable {K : Type} [Field K] [LinearOrder K]

/-- The number of the local face of an element that has the vertices of the boundary element; comparing sorted lists is
comparing up to order (src/components/SubMesher.cpp:637, 642-650, 742-749). -/
def localFace (m : Mesh K) (e : Nat) (f : BFace) : Option Nat :=
  (m.elemFaces e).findIdx? fun fv => fv.isPerm f.verts

/-- src/components/SubMesher.cpp:16-69: barycentre of a list of vertices. -/
def bary (m : Mesh K) (vs : List Nat) (d : Fin 3) : K :=
  (vs.map fun v => m.coord v d).sum / (vs.length : K)

/-- src/components/SubMesher.cpp:269-290: from the barycentre of the first element to that of the second one, or of the face
if there is none. -/
def baryVec (m : Mesh K) (f : BFace) (d : Fin 3) : K :=
  (match f.e2 with
    | some e2 => bary m (m.elemVerts e2) d
    | none => bary m f.fverts d) - bary m (m.elemVerts f.e1) d

/-- src/components/SubMesher.cpp:239-250, 569-580, 582-597: orientation of a face in two dimensions. -/
def orientation2 (m : Mesh K) (f : BFace) : K :=
  let v0 := f.fverts.getD 0 0
  let v1 := f.fverts.getD 1 0
  baryVec m f 0 * (m.coord v1 1 - m.coord v0 1) - baryVec m f 1 * (m.coord v1 0 - m.coord v0 0)

/-- src/components/SubMesher.cpp:641-650 and 741-749: `set_v1`; the default value when no local face matches. -/
def set1 (m : Mesh K) (f : BFace) (el1tf : Bool) : Int × Bool :=
  match localFace m f.e1 f with
  | some i => ((i : Int), el1tf)
  | none => (0, false)

/-- src/components/SubMesher.cpp:652-669 and 751-767: the first member of `set_v2`; the variable assigned when there is no
second element is another one, so it keeps its default value. -/
def set2 (m : Mesh K) (f : BFace) : Int :=
  match f.e2 with
  | some e2 => match localFace m e2 f with
    | some i => (i : Int)
    | none => 0
  | none => 0

/-- src/components/SubMesher.cpp:684-700: the mean of the distinct vertices of the marked faces. -/
def center (m : Mesh K) (d : Fin 3) : K :=
  let vs := ((m.bdr.filter fun f => f.marked).flatMap fun f => f.verts).eraseDups
  if vs.length = 0 then 0 else (vs.map fun v => m.coord v d).sum / (vs.length : K)

/-- src/components/SubMesher.cpp:713-718. -/
def distSq (m : Mesh K) (b : Fin 3 → K) : K :=
  (b 0 - center m 0) * (b 0 - center m 0) + (b 1 - center m 1) * (b 1 - center m 1) + (b 2 - center m 2) * (b 2 - center m 2)

/-- src/components/SubMesher.cpp:712-739: in three dimensions the closest side to the centre is the total-field side. -/
def closer (m : Mesh K) (f : BFace) : Bool :=
  match f.e2 with
  | some e2 => decide (distSq m (bary m (m.elemVerts f.e1)) < distSq m (bary m (m.elemVerts e2)))
  | none => decide (distSq m (bary m (m.elemVerts f.e1)) < distSq m (bary m f.fverts))

/-- src/components/SubMesher.cpp:628-674 (two dimensions) and 702-772 (three): what a face decides, the two face numbers and
whether the first element is on the total-field side. -/
def decision (dim : Nat) (m : Mesh K) (f : BFace) : (Int × Int) × Bool :=
  let s1 := set1 m f (if dim = 2 then !decide (0 ≤ orientation2 m f) else closer m f)
  ((s1.1, set2 m f), s1.2)

/-- src/components/SubMesher.cpp:500-524: one point in one dimension. -/
def decisionOne (m : Mesh K) (f : BFace) : (Int × Int) × Bool :=
  if f.e1 = 0 then ((0, NotFound), true)
  else if f.e1 + 1 = m.ne then ((1, NotFound), true)
  else ((1, 0), false)

/-- src/components/SubMesher.cpp:470-498 `twoPointAssignator`. -/
def decisionTwo (m : Mesh K) (second : Bool) (f : BFace) : (Int × Int) × Bool :=
  if second = false then
    if f.e1 = 0 ∧ f.e2 = none then ((0, NotFound), true) else ((1, 0), false)
  else
    if f.e1 + 1 = m.ne ∧ f.e2 = none then ((1, NotFound), true) else ((1, 0), true)

/-- The marked boundary elements, in order. (src/components/SubMesher.cpp:450-466) -/
def markedFaces (m : Mesh K) : List BFace := m.bdr.filter fun f => f.marked

/-- The loops over the marked boundary elements: every face with its decision.  In one dimension only one or two points can
be declared (src/components/SubMesher.cpp:549-567). -/
def decisions (dim : Nat) (m : Mesh K) : Option (List (BFace × (Int × Int) × Bool)) :=
  if dim = 1 then
    match markedFaces m with
    | [f] => some [(f, decisionOne m f)]
    | [f, g] => some [(f, decisionTwo m false f), (g, decisionTwo m true g)]
    | _ => none
  else some ((markedFaces m).map fun f => (f, decision dim m f))

/-- The loop itself. (src/components/SubMesher.cpp:599-675, 677-774) -/
def process (m : Mesh K) (ds : List (BFace × (Int × Int) × Bool)) : St :=
  ds.foldl (fun s d => prepare s d.1 d.2.1 d.2.2) ⟨m.attr, [], []⟩

/-- src/components/SubMesher.cpp:455-467: the loop body for one marked face. -/
def tagGlobal (a : Nat → Int) (f : BFace) : Nat → Int :=
  match f.e2 with
  | some e2 => setAttr (setAttr a f.e1 Global) e2 Global
  | none => setAttr a f.e1 Global

/-- src/components/SubMesher.cpp:450-468 `setGlobalTFSFAttributesForSubMeshing`. -/
def globalAttr (m : Mesh K) : Nat → Int :=
  (markedFaces m).foldl tagGlobal m.attr

/-- src/components/SubMesher.cpp:301-307 `cleanInvalidSubMeshEntries`. -/
def clean (l : List (Int × Int)) : List (Int × Int) := l.filter fun p => decide (p.1 ≠ -1)

/-- `SubMesh::CreateFromDomain`: the elements with an attribute. (src/components/SubMesher.cpp:347-357) -/
def withAttr (ne : Nat) (a : Nat → Int) (v : Int) : List Nat := (List.range ne).filter fun e => decide (a e = v)

/-- The three sub-meshes. (src/components/SubMesher.cpp:359-397) -/
structure Result where
  global : List Nat
  tf     : Option (List Nat)
  sf     : Option (List Nat)

/-- src/components/SubMesher.cpp:359-395: the constructor. -/
def construct (dim : Nat) (m : Mesh K) : Option Result :=
  (decisions dim m).map fun ds =>
    let s := process m ds
    ⟨withAttr m.ne (globalAttr m) Global,
      if clean s.tf = [] then none else some (withAttr m.ne s.attr TF),
      if clean s.sf = [] then none else some (withAttr m.ne s.attr SF)⟩

/-! ### Near-to-far-field surface -/

/-- src/components/SubMesher.cpp:252-267, 592-594: orientation of a face in three dimensions; `v2` is the third vertex of a
triangle and the fourth one of a quadrilateral. -/
def orientation3 (m : Mesh K) (f : BFace) : K :=
  let v0 := m.coord (f.fverts.getD 0 0)
  let v1 := m.coord (f.fverts.getD 1 0)
  let v2 := m.coord (f.fverts.getD (if f.fverts.length = 4 then 3 else 2) 0)
  baryVec m f 0 * ((v1 1 - v0 1) * (v2 2 - v0 2) - (v1 2 - v0 2) * (v2 1 - v0 1)) +
  baryVec m f 1 * ((v1 2 - v0 2) * (v2 0 - v0 0) - (v1 0 - v0 0) * (v2 2 - v0 2)) +
  baryVec m f 2 * ((v1 0 - v0 0) * (v2 1 - v0 1) - (v1 1 - v0 1) * (v2 0 - v0 0))

/-- src/components/SubMesher.cpp:803-830 (two dimensions) and 833-879 (three): local face number and `el_is_ntff`. -/
def ntffInfo (dim : Nat) (m : Mesh K) (f : BFace) : Int × Bool :=
  if dim = 2 then set1 m f (!decide (0 ≤ orientation2 m f))
  else
    match f.e2 with
    | some e2 => match localFace m e2 f with
      | some i => ((i : Int), !decide (0 ≤ orientation3 m f))
      | none => (0, false)
    | none => match localFace m f.e1 f with
      | some i => ((i : Int), false)
      | none => (0, false)

/-- src/components/SubMesher.cpp:888-896 `setAttributeForTagging`. -/
def ntffTag (a : Nat → Int) (f : BFace) (second : Bool) : Nat → Int :=
  if second then
    match f.e2 with
    | some e2 => setAttr a e2 NTFF
    | none => a
  else setAttr a f.e1 NTFF

/-- src/components/SubMesher.cpp:898-908 `storeElementToFaceInformation`. -/
def ntffStore (l : List (Int × Int)) (f : BFace) (id : Int) (second : Bool) : List (Int × Int) :=
  if id ≠ NotFound then
    if second = true ∧ f.e2.isSome then l ++ [(elem2No f, id)] else l ++ [((f.e1 : Int), id)]
  else l

/-- src/components/SubMesher.cpp:882-886 for all the marked faces: the attributes and `elem_to_face_ntff_`. -/
def ntffProcess (dim : Nat) (m : Mesh K) : (Nat → Int) × List (Int × Int) :=
  (markedFaces m).foldl (fun s f =>
    let i := ntffInfo dim m f
    (ntffTag s.1 f i.2, ntffStore s.2 f i.1 i.2)) (m.attr, [])

/-- src/components/SubMesher.cpp:779-801: the constructor; `none` is an error. -/
def ntffConstruct (dim : Nat) (m : Mesh K) : Option (List Nat) :=
  if dim = 2 ∨ dim = 3 then
    let s := ntffProcess dim m
    if s.2 = [] then none else some (withAttr m.ne s.1 NTFF)
  else none

/-! ### Transfers -/

/-- src/components/SubMesher.cpp:922-928 `TransferAdd`: `map[i]` is the degree of freedom of the parent of the `i`-th one of
the sub-mesh. -/
def transferAdd (map : List Nat) (src dst : Nat → K) : Nat → K :=
  map.zipIdx.foldl (fun d p => fun k => if k = p.1 then d k + src p.2 else d k) dst

/-- src/components/SubMesher.cpp:930-936 `TransferSub`. -/
def transferSub (map : List Nat) (src dst : Nat → K) : Nat → K :=
  map.zipIdx.foldl (fun d p => fun k => if k = p.1 then d k - src p.2 else d k) dst

end Dgtd.SubMesh
