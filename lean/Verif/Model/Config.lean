import Verif.Model.Assoc
import Mathlib.Algebra.Order.Field.Basic

/-
Model of how the case description becomes materials, boundary conditions and markers.

/repo/src/driver/driver.cpp 299-326, 355-366, 870-887, 926-1053, 1190-1240, 1553-1601;
/repo/src/components/Model.cpp 53-241; /repo/src/components/Material.cpp 5-24.

The JSON tree is given by its decoded entries; optional members are `Option`.  Entries without the members
the code reads unconditionally (`tags`, `boundaries`) are not represented.  A `std::map` is an association
list; the theorems hold for every order of its entries.
-/
namespace Dgtd.Config

open Dgtd

variable {K : Type} [Field K] [LinearOrder K]

/-- Errors: an exception, or an access outside an array (no checks in release builds). (src/driver/driver.cpp:926-1010, 1278-1291) -/
inductive Err where
  | throw
  | ub
deriving DecidableEq

/-! ### Keywords -/

/-- `BdrCond` (components/Types.h 47-55). -/
inductive Cond where
  | pec | pmc | sma | surfaceCond | nearToFarField | totalFieldIn | sgbc
deriving DecidableEq

/-- `FieldType` (components/Types.h 36). -/
inductive FieldType where
  | E | H
deriving DecidableEq

/-- `Direction` values X, Y, Z. (src/components/Types.h:66-69) -/
inductive Axis where
  | X | Y | Z
deriving DecidableEq

/-- `EvolutionOperatorType`. (src/evolution/EvolutionOptions.h:7-11) -/
inductive EvolOp where
  | maxwell | global | hesthaven
deriving DecidableEq

/-- `assignBdrCond` (driver.cpp 870-887). -/
def assignBdrCond (s : String) : Except Err Cond :=
  if s = "PEC" then .ok .pec
  else if s = "PMC" then .ok .pmc
  else if s = "SMA" then .ok .sma
  else if s = "SGBC" then .ok .sgbc
  else .error .throw

/-- `assignBoundaryType` (driver.cpp 1225-1240). -/
def assignBoundaryType (s : String) : Except Err Cond :=
  if s = "PEC" then .ok .pec
  else if s = "PMC" then .ok .pmc
  else if s = "SMA" then .ok .sma
  else .error .throw

/-- `assignFieldType` (driver.cpp 299-310) and `getFieldType` (355-366), which have the same body. -/
def assignFieldType (s : String) : Except Err FieldType :=
  if s = "electric" then .ok .E
  else if s = "magnetic" then .ok .H
  else .error .throw

/-- `assignFieldPol` (driver.cpp 312-326). -/
def assignFieldPol (s : String) : Except Err Axis :=
  if s = "X" then .ok .X
  else if s = "Y" then .ok .Y
  else if s = "Z" then .ok .Z
  else .error .throw

/-- The evolution operator of `buildSolverOptions` (driver.cpp 679-692); `none` is a missing keyword and
leaves the default. -/
def assignEvolOp (s : Option String) : Except Err EvolOp :=
  match s with
  | none => .ok .global
  | some s =>
    if s = "maxwell" then .ok .maxwell
    else if s = "global" then .ok .global
    else if s = "hesthaven" then .ok .hesthaven
    else .error .throw

/-! ### Materials -/

/-- `Material` (components/Material.h). (src/components/Material.h:47-60) -/
structure Material (K : Type) where
  eps : K
  mu : K
  sigma : K
deriving DecidableEq

/-- The constructor with `verifyParameters` (components/Material.cpp 5-24). -/
def Material.make (eps mu sigma : K) : Except Err (Material K) :=
  if eps < 1 then .error .throw
  else if mu < 1 then .error .throw
  else if sigma < 0 then .error .throw
  else .ok ⟨eps, mu, sigma⟩

/-- Material members of a JSON entry. (src/driver/driver.cpp:946-990) -/
structure MatParams (K : Type) where
  relPermittivity : Option K
  relPermeability : Option K
  bulkConductivity : Option K

/-- One entry of `model.materials`. (src/driver/driver.cpp:953-967) -/
structure MatEntry (K : Type) where
  params : MatParams K
  tags : List Int

/-- One entry of `model.boundaries`. (src/driver/driver.cpp:969-986, 992-1053) -/
structure BdrEntry (K : Type) where
  tags : List Int
  type : Option String
  material : Option (MatParams K)

/-- The material of an entry (driver.cpp 955-965, 972-982); `Z0` is `freeSpaceImpedance_SI`. -/
def buildMaterial (Z0 : K) (p : MatParams K) : Except Err (Material K) :=
  Material.make (p.relPermittivity.getD 1) (p.relPermeability.getD 1)
    (match p.bulkConductivity with
     | none => 0
     | some s => s * Z0)

/-- The loop over the tags of one entry (driver.cpp 954-966, 970-984): a material is built for every tag
and stored with `emplace`. -/
def emplaceTags (mk : Except Err (Material K)) :
    List Int → List (Int × Material K) → Except Err (List (Int × Material K))
  | [], m => .ok m
  | t :: ts, m =>
    match mk with
    | .error e => .error e
    | .ok mat => emplaceTags mk ts (Assoc.insert m t mat)

/-- The loop over the entries of `materials` (driver.cpp 953-967). -/
def materialLoop (Z0 : K) :
    List (MatEntry K) → List (Int × Material K) → Except Err (List (Int × Material K))
  | [], m => .ok m
  | e :: es, m =>
    match emplaceTags (buildMaterial Z0 e.params) e.tags m with
    | .error x => .error x
    | .ok m' => materialLoop Z0 es m'

/-- The loop over the boundaries with a material (driver.cpp 969-985). -/
def bdrMaterialLoop (Z0 : K) :
    List (BdrEntry K) → List (Int × Material K) → Except Err (List (Int × Material K))
  | [], m => .ok m
  | e :: es, m =>
    match e.material with
    | none => bdrMaterialLoop Z0 es m
    | some p =>
      match emplaceTags (buildMaterial Z0 p) e.tags m with
      | .error x => .error x
      | .ok m' => bdrMaterialLoop Z0 es m'

/-- `assembleAttributeToMaterial` with `checkIfAttributesArePresent` (driver.cpp 926-990); `atts` and
`batts` are the element and boundary attributes of the mesh. -/
def assembleAttributeToMaterial (Z0 : K) (ms : List (MatEntry K)) (bs : List (BdrEntry K))
    (atts batts : List Int) : Except Err (List (Int × Material K) × List (Int × Material K)) :=
  match materialLoop Z0 ms [] with
  | .error x => .error x
  | .ok gt2m =>
    match bdrMaterialLoop Z0 bs [] with
    | .error x => .error x
    | .ok gt2bm =>
      if gt2m.all (fun p => decide (p.1 ∈ atts)) then
        if gt2bm.all (fun p => decide (p.1 ∈ batts)) then .ok (gt2m, gt2bm)
        else .error .throw
      else .error .throw

/-! ### Boundary conditions -/

/-- A face of the mesh: the attribute of its boundary element, if it has one, and whether it lies between
two elements (`GetFaceToBdrElMap`, `GetBdrAttribute`, `FaceIsInterior`). (src/driver/driver.cpp:1020-1037) -/
structure Face where
  attr : Option Int
  interior : Bool
deriving DecidableEq

/-- `checkBoundaryInputProperties` (driver.cpp 992-1008). -/
def checkBoundaryInput (bs : List (BdrEntry K)) : Bool :=
  bs.all fun b => !b.tags.isEmpty && b.type.isSome

/-- The search over the faces (driver.cpp 1028-1036). -/
def onInteriorFace (faces : List Face) (t : Int) : Bool :=
  faces.any fun f => decide (f.attr = some t) && f.interior

/-- The two maps filled by the loop (driver.cpp 1014-1017). -/
structure BdrMaps where
  cond : List (Int × Cond)
  isInterior : List (Int × Bool)

/-- The body for one tag (driver.cpp 1026-1036). -/
def bdrTag (faces : List Face) (c : Cond) (m : BdrMaps) (t : Int) : BdrMaps :=
  { cond := Assoc.insert m.cond t c
    isInterior :=
      if onInteriorFace faces t then Assoc.assign (Assoc.insert m.isInterior t false) t true
      else Assoc.insert m.isInterior t false }

/-- The loop over the tags of an entry (driver.cpp 1025-1037): the keyword is decoded for every tag. -/
def bdrTags (faces : List Face) (type : String) : List Int → BdrMaps → Except Err BdrMaps
  | [], m => .ok m
  | t :: ts, m =>
    match assignBdrCond type with
    | .error x => .error x
    | .ok c => bdrTags faces type ts (bdrTag faces c m t)

/-- The loop over the boundaries (driver.cpp 1024-1038). -/
def bdrLoop (faces : List Face) : List (BdrEntry K) → BdrMaps → Except Err BdrMaps
  | [], m => .ok m
  | b :: bs, m =>
    match bdrTags faces (b.type.getD "") b.tags m with
    | .error x => .error x
    | .ok m' => bdrLoop faces bs m'

/-- `GeomTagToBoundaryInfo` (components/Model.h 35-50). -/
structure BdrInfo where
  gt2b : List (Int × Cond)
  gt2ib : List (Int × Cond)
deriving DecidableEq

/-- Distribution over the two result maps (driver.cpp 1040-1050).  `operator[]` inserts the first value of
the enumeration, PEC, when the key is missing. -/
def splitMaps (cond : List (Int × Cond)) : List (Int × Bool) → BdrInfo → BdrInfo
  | [], r => r
  | (t, false) :: rest, r =>
    splitMaps cond rest { r with gt2b := Assoc.insert r.gt2b t ((Assoc.find cond t).getD .pec) }
  | (t, true) :: rest, r =>
    splitMaps cond rest { r with gt2ib := Assoc.insert r.gt2ib t ((Assoc.find cond t).getD .pec) }

/-- `assembleAttributeToBoundary` (driver.cpp 1010-1053). -/
def assembleAttributeToBoundary (bs : List (BdrEntry K)) (faces : List Face) : Except Err BdrInfo :=
  if checkBoundaryInput bs then
    match bdrLoop faces bs ⟨[], []⟩ with
    | .error x => .error x
    | .ok m => .ok (splitMaps m.cond m.isInterior ⟨[], []⟩)
  else .error .throw

/-! ### `Model` -/

/-- Which member array `getMarker` returns (components/Model.cpp 200-241): the total-field marker is shared
by both values of `isInterior`. -/
def markerKey (c : Cond) (interior : Bool) : Except Err (Cond × Bool) :=
  match c with
  | .pec => .ok (.pec, interior)
  | .pmc => .ok (.pmc, interior)
  | .sma => .ok (.sma, interior)
  | .totalFieldIn => .ok (.totalFieldIn, false)
  | .sgbc => .ok (.sgbc, interior)
  | .surfaceCond => .error .throw
  | .nearToFarField => .error .throw

/-- The member arrays, by key; an array of size zero is absent or empty. (src/components/Model.cpp:102-119) -/
abbrev Markers := List ((Cond × Bool) × List Int)

/-- The content of a member array. (src/components/Model.cpp:200-240) -/
def Markers.get (m : Markers) (k : Cond × Bool) : List Int := (Assoc.find m k).getD []

/-- `marker[geomTag - 1] = 1` on an array of the given content. (src/components/Model.cpp:180-198) -/
def setOne (a : List Int) (tag : Int) : Except Err (List Int) :=
  if 0 ≤ tag - 1 ∧ (tag - 1).toNat < a.length then .ok (a.set (tag - 1).toNat 1) else .error .ub

/-- `assembleGeomTagToTypeMap` (components/Model.cpp 174-198); `n` is `bdr_attributes.Max()`. -/
def assembleTypes (n : Nat) (interior : Bool) : List (Int × Cond) → Markers → Except Err Markers
  | [], m => .ok m
  | (t, c) :: rest, m =>
    if t ≤ 0 then .error .throw
    else
      match markerKey c interior with
      | .error x => .error x
      | .ok k =>
        match setOne (if m.get k = [] then List.replicate n 0 else m.get k) t with
        | .error x => .error x
        | .ok a => assembleTypes n interior rest (Assoc.assign m k a)

/-- `assembleBdrToMarkerMaps` (components/Model.cpp 102-119), one of the two maps. -/
def toMarkerMap (m : Markers) (interior : Bool) : List (Cond × List Int) :=
  [Cond.pec, .pmc, .sma, .sgbc].filterMap fun c =>
    if m.get (c, interior) = [] then none else some (c, m.get (c, interior))

/-- What the constructor leaves for the solver (components/Model.cpp 53-100).  The map from faces to tags
(80-92), which no other part of the code reads, is not modelled. -/
structure ModelData (K : Type) where
  materials : List (Int × Material K)
  bdrMaterials : List (Int × Material K)
  markers : Markers
  bdrToMarker : List (Cond × List Int)
  intBdrToMarker : List (Cond × List Int)

/-- The constructor (components/Model.cpp 53-100). -/
def construct (n : Nat) (gt2m gt2bm : List (Int × Material K)) (info : BdrInfo) :
    Except Err (ModelData K) :=
  match assembleTypes n false info.gt2b [] with
  | .error x => .error x
  | .ok m1 =>
    match assembleTypes n true info.gt2ib m1 with
    | .error x => .error x
    | .ok m =>
      .ok
        { materials := if gt2m.isEmpty then [(1, ⟨1, 1, 0⟩)] else gt2m
          bdrMaterials := gt2bm
          markers := m
          bdrToMarker := toMarkerMap m false
          intBdrToMarker := toMarkerMap m true }

/-- `initialiseGeomTagVector` (components/Model.cpp 131-143): its size.  The assertion is not compiled in
release builds; a size of zero gives an empty vector. -/
def tagVectorSize (ms : List (Int × Material K)) : Int :=
  ms.foldl (fun size p => if p.1 ≥ size then p.1 else size) 0

/-- `res[geomTag - 1] = v` over all the entries (components/Model.cpp 149-158, 167-169). -/
def fillTags (f : Material K → K) : List (Int × Material K) → List K → Except Err (List K)
  | [], v => .ok v
  | (t, m) :: rest, v =>
    if 0 ≤ t - 1 ∧ (t - 1).toNat < v.length then fillTags f rest (v.set (t - 1).toNat (f m))
    else .error .ub

/-- `buildEpsMuPiecewiseVector` (components/Model.cpp 145-161). -/
def epsMuVector (ms : List (Int × Material K)) (f : FieldType) : Except Err (List K) :=
  fillTags (fun m => match f with
    | .E => m.eps
    | .H => m.mu) ms (List.replicate (tagVectorSize ms).toNat 0)

/-- `buildSigmaPiecewiseVector` (components/Model.cpp 163-172). -/
def sigmaVector (ms : List (Int × Material K)) : Except Err (List K) :=
  fillTags (fun m => m.sigma) ms (List.replicate (tagVectorSize ms).toNat 0)

/-- `PWConstCoefficient::Eval`, which reads the entry of the attribute of the element without check
(MFEM; used in components/DGOperatorFactory.h 415-416, 853-854). -/
def pwEval (v : List K) (attr : Int) : Except Err K :=
  if 0 ≤ attr - 1 then
    match v[(attr - 1).toNat]? with
    | some x => .ok x
    | none => .error .ub
  else .error .ub

/-! ### Sources -/

/-- One entry of `sources`: whether its type is `planewave` or `dipole`, and its tags. (src/driver/driver.cpp:1555-1575) -/
structure SrcEntry where
  totalField : Bool
  tags : List Int

/-- The marker of the attributes that are in `tags` and on some boundary element (driver.cpp 1561-1570,
1580-1589).  Boundary attributes of the mesh lie in `1 … n`. -/
def presentMarker (n : Nat) (bdrAttrs : List Int) (tags : List Int) : List Int :=
  tags.foldl (fun a t =>
    bdrAttrs.foldl (fun a b => if b = t then a.set (b - 1).toNat 1 else a) a) (List.replicate n 0)

/-- The total-field part of `postProcessInformation` (driver.cpp 1555-1575): `insert` keeps the marker of the
first source. -/
def tfsfLoop (n : Nat) (bdrAttrs : List Int) :
    List SrcEntry → List (Cond × List Int) → List (Cond × List Int)
  | [], m => m
  | s :: ss, m =>
    if s.totalField then
      if (presentMarker n bdrAttrs s.tags).sum ≠ 0 then
        tfsfLoop n bdrAttrs ss (Assoc.insert m .totalFieldIn (presentMarker n bdrAttrs s.tags))
      else tfsfLoop n bdrAttrs ss m
    else tfsfLoop n bdrAttrs ss m

/-- `getTFSFTags` (driver.cpp 1190-1205). -/
def getTFSFTags (ss : List SrcEntry) : List Int :=
  ss.flatMap fun s => if s.totalField then s.tags else []

/-- `getSGBCTags` (driver.cpp 1207-1223). -/
def getSGBCTags (bs : List (BdrEntry K)) : List Int :=
  bs.flatMap fun b => if b.type = some "SGBC" then b.tags else []

/-- The thin-layer part of `postProcessInformation` (driver.cpp 1577-1594). -/
def sgbcLoop (n : Nat) (bdrAttrs : List Int) (all : List (BdrEntry K)) :
    List (BdrEntry K) → List (Cond × List Int) → List (Cond × List Int)
  | [], m => m
  | b :: bs, m =>
    if b.type = some "SGBC" then
      if (presentMarker n bdrAttrs (getSGBCTags all)).sum ≠ 0 then
        sgbcLoop n bdrAttrs all bs (Assoc.insert m .sgbc (presentMarker n bdrAttrs (getSGBCTags all)))
      else sgbcLoop n bdrAttrs all bs m
    else sgbcLoop n bdrAttrs all bs m

end Dgtd.Config
