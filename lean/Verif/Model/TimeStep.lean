/-
Model of the options of the solver, their validation, and the automatic time step.

Numbers: `double` is a real number; rounding, infinities and `NaN` are not modelled.
-/
import Verif.Model.Config
import Mathlib.Analysis.SpecialFunctions.Pow.Real

namespace Dgtd.TimeStep
open Dgtd.Config (EvolOp Err assignEvolOp)

noncomputable section

/-! ### Options -/

/-- The members of `solver_options` that matter here (src/driver/driver.cpp:644-705); `none` is an absent member.
`odeType` is a JSON integer. -/
structure Json where
  timeStep  : Option ℝ
  finalTime : Option ℝ
  cfl       : Option ℝ
  order     : Option Int
  operator  : Option String
  odeType   : Option Int

/-- src/solver/SolverOptions.h:21-28 and src/evolution/EvolutionOptions.h:13-20. -/
structure Options where
  timeStep  : ℝ
  finalTime : ℝ
  cfl       : ℝ
  odeType   : Nat
  op        : EvolOp
  order     : Int

/-- src/driver/driver.cpp:644-705 `buildSolverOptions`; the default values are those of
src/solver/SolverOptions.h:22-26 and src/evolution/EvolutionOptions.h:14-15.  A negative integer becomes a
`size_t`. -/
def buildOptions (j : Json) : Except Err Options := do
  let op ← assignEvolOp j.operator
  pure { timeStep := j.timeStep.getD 0, finalTime := j.finalTime.getD 2, cfl := j.cfl.getD 1
         odeType := ((j.odeType.getD 0) % 18446744073709551616).toNat, op := op, order := j.order.getD 2 }

open Classical in
/-- src/solver/Solver.cpp:151-163 `checkOptionsAreValid`. -/
def checkOptions (o : Options) : Except Err Unit :=
  if o.order < 0 ∨ o.finalTime < 0 then .error .throw
  else if o.cfl ≤ 0 then .error .throw
  else .ok ()

/-- src/solver/Solver.cpp:41-77 `assignODESolver`: seven integrators, numbered from zero
(src/solver/SolverOptions.h:8-18). -/
def assignOde (n : Nat) : Except Err Nat := if n ≤ 6 then .ok n else .error .throw

open Classical in
/-- src/solver/Solver.cpp:79-149, the part of the constructor that looks at the options, on one rank: the time step
and the integrator.  `estimate` is the automatic time step.  Everything built before the check (the finite element
space, the managers of sources and probes) and the spectral analysis are left out. -/
def construct (estimate : Options → Except Err ℝ) (o : Options) (rank : Nat) : Except Err (ℝ × Nat) := do
  if rank = 0 then checkOptions o
  let dt ← if o.timeStep = 0 then estimate o else pure o.timeStep
  let ode ← assignOde o.odeType
  pure (dt, ode)

/-- All the ranks of a run construct their solver.  A rank that raises an error takes the others down. (src/solver/Solver.cpp:79-149) -/
def constructAll (estimate : Options → Except Err ℝ) (o : Options) (ranks : Nat) : Except Err (List (ℝ × Nat)) :=
  (List.range ranks).mapM (construct estimate o)

/-! ### Geometry -/

/-- Coordinates of a vertex; the third one is zero in the plane. (src/solver/Solver.cpp:226-246) -/
structure Pt where
  x : ℝ
  y : ℝ
  z : ℝ

/-- MFEM's element types that occur. (src/solver/Solver.cpp:197-205, 289-300) -/
inductive Shape where
  | segment | triangle | quadrilateral | tetrahedron | hexahedron
deriving DecidableEq

/-- A face in space: its first three vertices and, for a quadrilateral, the fourth one. (src/solver/Solver.cpp:236-245) -/
structure Face where
  a : Pt
  b : Pt
  c : Pt
  d : Option Pt

/-- An element as MFEM presents it: type, `GetElementVolume`, `GetElementSize`, end points of its edges, its faces,
and the coordinates of its nodes (used in one dimension only). (src/solver/Solver.cpp:175-252) -/
structure Elem where
  shape  : Shape
  volume : ℝ
  size   : ℝ
  edges  : List (Pt × Pt)
  faces  : List Face
  nodes  : List ℝ

/-- src/solver/Solver.cpp:225-230: length of an edge. -/
def edgeLength (e : Pt × Pt) : ℝ :=
  Real.sqrt ((e.2.x - e.1.x) * (e.2.x - e.1.x) + (e.2.y - e.1.y) * (e.2.y - e.1.y) + (e.2.z - e.1.z) * (e.2.z - e.1.z))

/-- src/solver/Solver.cpp:233-243: area of the triangle of the first three vertices of a face. -/
def faceArea (f : Face) : ℝ :=
  let e1x := f.b.x - f.a.x; let e1y := f.b.y - f.a.y; let e1z := f.b.z - f.a.z
  let e2x := f.c.x - f.a.x; let e2y := f.c.y - f.a.y; let e2z := f.c.z - f.a.z
  let cx := e1y * e2z - e1z * e2y
  let cy := e1z * e2x - e1x * e2z
  let cz := e1x * e2y - e1y * e2x
  1 / 2 * Real.sqrt (cx * cx + cy * cy + cz * cz)

/-- src/solver/Solver.cpp:212-247: the sum over the edges (in the plane) or faces. -/
def faceAreaSum (dim : Nat) (e : Elem) : ℝ :=
  if dim = 2 then (e.edges.map edgeLength).sum else (e.faces.map faceArea).sum

/-- src/solver/Solver.cpp:248-249 `dtscale(e)`. -/
def dtScale (dim : Nat) (e : Elem) : ℝ := e.volume / (faceAreaSum dim e / 2)

/-- `mfem::Vector::Min` of a non-empty vector. (src/solver/Solver.cpp:294) -/
def minOf (a : ℝ) (l : List ℝ) : ℝ := l.foldl min a

/-- src/solver/Solver.cpp:254-263 `getJacobiGQ_RMin`: distance between the first two nodes of the reference segment
of length two.  `lobatto p` lists the nodes of order `p`.  With a single node it reads out of bounds. -/
def rMin (lobatto : Nat → List ℝ) (order : Nat) : Except Err ℝ :=
  match lobatto order with
  | a :: b :: _ => .ok |a - b|
  | _ => .error .ub

/-- src/solver/Solver.cpp:289-300 `calcMeshTimeStep`; the speed of light is one
(src/math/PhysicalConstants.h).  An empty mesh, for which the minimum is infinite, counts as undefined. -/
def calcMeshTimeStep (lobatto : Nat → List ℝ) (order dim : Nat) (elems : List Elem) (divisor : ℝ) (special : Shape) :
    Except Err ℝ := do
  let r ← rMin lobatto order
  match elems.map (dtScale dim) with
  | [] => .error .ub
  | s :: rest =>
    let dt := minOf s rest * r * 2 / 3 / 1 * (3 / 4)
    pure (if elems.any (fun e => decide (e.shape = special)) then dt / divisor else dt)

/-- The largest `double` (src/solver/Solver.cpp:179). -/
def dblMax : ℝ := (2 - 1 / 4503599627370496) * 2 ^ 1023

/-- All the distances between a node and the later ones (src/solver/Solver.cpp:187-190). -/
def pairDistances : List ℝ → List ℝ
  | [] => []
  | x :: rest => rest.map (fun y => |x - y|) ++ pairDistances rest

/-- src/solver/Solver.cpp:181-193: what one element contributes. -/
def elemDistances (e : Elem) : List ℝ := if e.nodes.length = 1 then [e.size] else pairDistances e.nodes

/-- src/solver/Solver.cpp:175-195 `getMinimumInterNodeDistance`. -/
def minDistance (elems : List Elem) : ℝ := minOf dblMax (elems.flatMap elemDistances)

/-- src/solver/Solver.cpp:335-343: the largest scale over the elements of the whole mesh, read from the storage of
the linear elements of this rank (src/evolution/HesthavenEvolution.h:23); `none` is a read out of bounds.  The
largest coefficient of the scales of an element is given directly. -/
def maxFscale (storage : List ℝ) (elements : Nat) : Option ℝ :=
  (List.range elements).foldlM (fun m e => (storage[e]?).map fun f => max m f) 0

/-- What the automatic time step looks at: dimension, elements of the whole mesh, and for the nodal operator the
largest face scale of each element stored by this rank. (src/solver/Solver.cpp:302-354) -/
structure Setup where
  dim     : Nat
  elems   : List Elem
  storage : List ℝ

/-- src/solver/Solver.cpp:320-331: the step from the geometry. -/
def baseStep (lobatto : Nat → List ℝ) (m : Setup) (o : Options) : Except Err ℝ :=
  if m.dim = 2 then (calcMeshTimeStep lobatto o.order.toNat 2 m.elems 2 .quadrilateral).map (· * o.cfl)
  else if m.dim = 3 then (calcMeshTimeStep lobatto o.order.toNat 3 m.elems 6 .hexahedron).map (· * o.cfl)
  else .error .throw

/-- src/solver/Solver.cpp:333-353: corrections of the operators in three dimensions. -/
def operatorStep (m : Setup) (o : Options) (base : ℝ) : Except Err ℝ :=
  if o.op = .hesthaven ∧ m.dim = 3 then
    match maxFscale m.storage m.elems.length with
    | none => .error .ub
    | some f => .ok (1 * o.cfl / (f * (o.order : ℝ) * (o.order : ℝ)))
  else if o.op = .global ∧ m.dim = 3 then .ok (base / (4 / 5))
  else .ok base

/-- src/solver/Solver.cpp:302-354 `estimateTimeStep`. -/
def estimateTimeStep (lobatto : Nat → List ℝ) (m : Setup) (o : Options) : Except Err ℝ :=
  if m.dim = 1 then
    if o.order = 0 then .ok (o.cfl * (minDistance m.elems / 1))
    else .ok (o.cfl * (minDistance m.elems / (o.order : ℝ) ^ (3 / 2 : ℝ) / 1))
  else (baseStep lobatto m o).bind (operatorStep m o)

end

end Dgtd.TimeStep
