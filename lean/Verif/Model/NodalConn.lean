/-
Model of the assembly of the tables of the nodal (hesthaven) operator, `Connectivities`:
src/evolution/HesthavenEvolutionMethods.cpp, from the faces of a mesh of one type of element in two or three dimensions.

Library facts taken as they are: element `e` of a discontinuous space has the nodes `n e, …, n e + n - 1`; `SubMesh` keeps the
order of the elements and of their nodes, so that in the sub-mesh of the two elements of a face the nodes of the one with the
lower number, which is the first element of the face, come first; assembling a form on a single face gives its element matrix;
`Finalize` stores no zeros.  Two elements share one face.
-/
import Verif.Model.NodalMaps
import Verif.Model.NodalAssembly
import Verif.Model.Integrators
import Mathlib.Algebra.Order.Group.Abs

namespace Dgtd.Nodal

open Dgtd.NodalMaps

variable {K : Type} [Field K] [LinearOrder K] {ι : Type}

/-- The faces of a mesh: number of elements, nodes of an element, faces of each element in their local order
(`ElementToEdgeTable` or `ElementToFaceTable`), elements of each face (no second one on the outer boundary), and its shape
functions at the points of its quadrature. (src/evolution/HesthavenEvolutionMethods.cpp:721-757) -/
structure Faces (ι K : Type) where
  ne     : Nat
  n      : Nat
  table  : Nat → List Nat
  first  : Nat → Nat
  second : Nat → Option Nat
  face   : Nat → Op.Face ι K

/-- src/evolution/HesthavenEvolutionMethods.cpp:324-331 `assembleInteriorFluxMatrix`: the rows of the sparse matrix. -/
def fluxRows (f : Op.Face ι K) : List (Row K) :=
  (List.range (f.ndof1 + f.ndof2)).map fun r =>
    ((List.range (f.ndof1 + f.ndof2)).map fun c => (c, Op.hesthavenFlux f r c)).filter fun q => decide (q.2 ≠ 0)

/-- src/evolution/HesthavenEvolutionMethods.cpp:387-404 `buildConnectivityForInteriorBdrFace`, and lines 345-361 before
sorting: nodes of the first element of face `s` and of the second one, `e2`, that face each other. -/
def facing (T : Faces ι K) (s e2 : Nat) : List (Nat × Nat) :=
  (mapConnectivity (1 / 1000000) (fluxRows (T.face s))).map fun q => (T.first s * T.n + q.1, e2 * T.n + (q.2 - T.n))

/-- `operator<=` of `std::pair`. (src/evolution/HesthavenEvolutionMethods.cpp:355, 361) -/
def pairLe (a b : Nat × Nat) : Prop := a.1 < b.1 ∨ (a.1 = b.1 ∧ a.2 ≤ b.2)

/-- `operator<=` is computed. (src/evolution/HesthavenEvolutionMethods.cpp:355, 361) -/
instance : DecidableRel pairLe := fun a b => inferInstanceAs (Decidable (a.1 < b.1 ∨ (a.1 = b.1 ∧ a.2 ≤ b.2)))

/-- src/evolution/HesthavenEvolutionMethods.cpp:342-371 `appendConnectivityMapsForInteriorFace` for element `e`; `none` is a
thrown exception. -/
def innerBlock (T : Faces ι K) (e s e2 : Nat) : Option (List (Nat × Nat)) :=
  if T.first s = e then some ((facing T s e2).insertionSort pairLe)
  else if e2 = e then some (((facing T s e2).map Prod.swap).insertionSort pairLe)
  else none

/-- src/evolution/HesthavenEvolutionMethods.cpp:406-433 `appendConnectivityMapsForBoundaryFace` for element `e`. -/
def outerBlock (T : Faces ι K) (e s : Nat) : List (Nat × Nat) :=
  ((List.range T.n).filter fun r => decide (1 / 100000000 < |Op.hesthavenFlux (T.face s) r r|)).map fun r =>
    (e * T.n + r, e * T.n + r)

/-- src/evolution/HesthavenEvolutionMethods.cpp:758-787: one local face of an element. -/
def block (T : Faces ι K) (e s : Nat) : Option (List (Nat × Nat)) :=
  match T.second s with
  | none => some (outerBlock T e s)
  | some e2 => innerBlock T e s e2

/-- src/evolution/HesthavenEvolutionMethods.cpp:721-791 `assembleGlobalConnectivityMap` in two and three dimensions. -/
def globalConn (T : Faces ι K) : Option (List (Nat × Nat)) :=
  ((List.range T.ne).mapM fun e => ((T.table e).mapM (block T e)).map List.flatten).map List.flatten

/-- `BdrCond`: those with tables of their own, and the others. (src/evolution/HesthavenEvolutionMethods.cpp:536-575) -/
inductive Mark where
  | PEC | PMC | SMA | totalFieldIn | other
  deriving DecidableEq

/-- A boundary element: its face, the sign computed for it on a total-field surface (C91), and the conditions whose markers
contain its attribute: those of the outer boundary (src/evolution/HesthavenEvolutionMethods.cpp:666), of the interior and of
the total field (line 602). -/
structure Bdr (K : Type) where
  face  : Nat
  ori   : K
  outer : List Mark
  inner : List Mark
  total : List Mark

/-- src/evolution/HesthavenEvolutionMethods.cpp:461-488 `findNodesPerBdrFace`, `assembleNodeVectorPerBdrFace`: the nodes of a
face of the outer boundary. -/
def bdrNodes (T : Faces ι K) (s : Nat) : List Nat :=
  ((List.range T.n).filter fun r => decide (1 / 1000000 < |Op.hesthavenFlux (T.face s) r r|)).map fun r => T.first s * T.n + r

/-- src/evolution/HesthavenEvolutionMethods.cpp:671-692: positions and nodes of a face are stored with its condition. -/
def addOuter (c : List (Nat × Nat)) (ids : List Nat) (m : BdrMaps) : Mark → BdrMaps
  | .PEC => { m with pec := m.pec ++ ids.map fun i => (i, (c.getD i (0, 0)).1) }
  | .PMC => { m with pmc := m.pmc ++ ids.map fun i => (i, (c.getD i (0, 0)).1) }
  | .SMA => { m with sma := m.sma ++ ids.map fun i => (i, (c.getD i (0, 0)).1) }
  | _ => m

/-- One boundary element in src/evolution/HesthavenEvolutionMethods.cpp:664-693: the loop over `vmapB` stops at its first
iteration, so it only asks whether there is any position of the boundary.  `none` is a thrown exception. -/
def addBdr (T : Faces ι K) (c : List (Nat × Nat)) (m : BdrMaps) (b : Bdr K) : Option BdrMaps :=
  b.outer.foldlM (fun m k => if (initMapB c).isEmpty then some m
    else (findMapBID (bdrNodes T b.face) c).map fun ids => addOuter c ids m k) m

/-- src/evolution/HesthavenEvolutionMethods.cpp:659-695 `initBdrConnectivityMaps` after lines 490-499
(`assembleInteriorOrTrueBdrMap`): `isInteriorMap.at(false)` throws if no boundary element lies on the outer boundary. -/
def initBdr (T : Faces ι K) (c : List (Nat × Nat)) (bs : List (Bdr K)) : Option BdrMaps :=
  let l := bs.filter fun b => decide (T.second b.face = none)
  if l.isEmpty then none else l.foldlM (addBdr T c) ⟨[], [], [], [], [], []⟩

/-- src/evolution/HesthavenEvolutionMethods.cpp:536-576 `loadIntBdrConditions`, with 578-588 `initInteriorFacesMapB`; `none` is
a thrown exception. -/
def addInner (c : List (Nat × Nat)) (prs : List (Nat × Nat)) (ori : K) (m : BdrMaps × List TfNode) : Mark → Option (BdrMaps × List TfNode)
  | .PEC => some ({ m.1 with ipec := m.1.ipec ++ prs.map fun q => ⟨(interiorMapB c q.1 q.2).1, (interiorMapB c q.1 q.2).2, q.1, q.2⟩ }, m.2)
  | .PMC => some ({ m.1 with ipmc := m.1.ipmc ++ prs.map fun q => ⟨(interiorMapB c q.1 q.2).1, (interiorMapB c q.1 q.2).2, q.1, q.2⟩ }, m.2)
  | .SMA => some ({ m.1 with isma := m.1.isma ++ prs.map fun q => ⟨(interiorMapB c q.1 q.2).1, (interiorMapB c q.1 q.2).2, q.1, q.2⟩ }, m.2)
  | .totalFieldIn => some (m.1, m.2 ++ prs.map fun q =>
      if 0 ≤ ori then ⟨(interiorMapB c q.1 q.2).1, (interiorMapB c q.1 q.2).2, q.1⟩
      else ⟨(interiorMapB c q.1 q.2).2, (interiorMapB c q.1 q.2).1, q.2⟩)
  | .other => none

/-- src/evolution/HesthavenEvolutionMethods.cpp:590-614 `initIntFaceConnectivityMaps` with the markers `marks`; a face of the
outer boundary has no second element and its use is undefined (`none`). -/
def initInt (T : Faces ι K) (c : List (Nat × Nat)) (marks : Bdr K → List Mark) (bs : List (Bdr K))
    (m : BdrMaps × List TfNode) : Option (BdrMaps × List TfNode) :=
  bs.foldlM (fun m b => (marks b).foldlM (fun m k =>
    match T.second b.face with
    | none => none
    | some e2 => addInner c (facing T b.face e2) b.ori m k) m) m

/-- src/evolution/HesthavenEvolutionMethods.cpp:501-534 `Connectivities`: the connectivity, the maps of the conditions and
those of the total field. -/
def connectivities (T : Faces ι K) (bs : List (Bdr K)) : Option (List (Nat × Nat) × BdrMaps × List TfNode) :=
  (globalConn T).bind fun c => (initBdr T c bs).bind fun m =>
    (initInt T c Bdr.inner bs (m, [])).bind fun m => (initInt T c Bdr.total bs m).map fun m => (c, m)

end Dgtd.Nodal
