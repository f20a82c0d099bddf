/-
Model of the set-up of the nodal (hesthaven) operator: src/evolution/HesthavenEvolution.cpp, constructor and the functions it
calls, and of the whole product `Mult` for meshes of linear elements.

`double` is an element of an ordered field.  What MFEM computes is an input: shape functions at the quadrature points of the
faces of the reference element, inverses of mass matrices, derivative matrices, volumes, weights and normals of the elements.
-/
import Verif.Model.Nodal
import Verif.Model.NodalMaps
import Verif.Model.Integrators

namespace Dgtd.Nodal

open NodalMaps

/-- Types of elements of src/evolution/HesthavenEvolution.cpp:134-148. -/
inductive Geom | triangle | quadrilateral | tetrahedron | hexahedron
  deriving DecidableEq

variable {K : Type} [Field K] [LinearOrder K]

/-- src/evolution/HesthavenEvolution.cpp:134-148 `getReferenceVolume`. -/
def referenceVolume : Geom → K
  | .triangle => 2
  | .quadrilateral => 4
  | .tetrahedron => 8 / 6
  | .hexahedron => 8

/-- Element 0 of a reference mesh: its type and the determinant of its transformation from MFEM's reference element.
(src/evolution/HesthavenEvolution.cpp:20-81) -/
structure RefMesh (K : Type) where
  geom   : Geom
  weight : K

/-- src/evolution/HesthavenEvolution.cpp:27-44 `getRefMeshForGeomType`.  In the plane `MakeCartesian2D` meshes the rectangle of
the given sides: `2 × 2` cut in two triangles (determinant 4), or, without sides, the unit square (determinant 1).  In space it is
always the tetrahedron of src/evolution/HesthavenEvolutionMethods.cpp:257-268 (determinant 8).  `none` is a thrown exception. -/
def refMesh (dim : Nat) (g : Geom) : Option (RefMesh K) :=
  if dim = 2 then
    match g with
    | .triangle => some ⟨.triangle, 4⟩
    | .quadrilateral => some ⟨.quadrilateral, 1⟩
    | _ => none
  else if dim = 3 then some ⟨.tetrahedron, 8⟩
  else none

/-- Number of nodes of an element of order `p` (MFEM's `L2_FECollection`). (src/evolution/HesthavenEvolution.cpp:49, 63) -/
def nodesOf (p : Nat) : Geom → Nat
  | .triangle => (p + 1) * (p + 2) / 2
  | .quadrilateral => (p + 1) * (p + 1)
  | .tetrahedron => (p + 1) * (p + 2) * (p + 3) / 6
  | .hexahedron => (p + 1) * (p + 1) * (p + 1)

/-- src/components/Model.cpp:43-51 `ensureElementTypeIsSame`, called for every mesh: `false` is a thrown exception. -/
def sameType : List Geom → Bool
  | [] => true
  | g :: gs => gs.all fun g' => decide (g = g')

/-- src/evolution/HesthavenEvolution.cpp:349-366: number of rows and columns of `refInvMass`: the matrix stays empty if the
elements are of several types. -/
def refInvMassSize (dim p : Nat) (elems : List Geom) : Option Nat :=
  match elems with
  | [] => none
  | g :: gs => if gs.all (fun g' => decide (g = g')) then (refMesh (K := K) dim g).map fun m => nodesOf p m.geom else some 0

/-- src/evolution/HesthavenEvolution.cpp:158, the sizes of `refInvMass * toEigen(*denseMat)` for all the elements: other sizes
are an assertion of Eigen, or an access out of bounds if assertions are off. -/
def sizesMatch (dim p : Nat) (elems : List Geom) : Option Bool :=
  (refInvMassSize (K := K) dim p elems).map fun n => elems.all fun g => decide (nodesOf p g = n)

/-- The reference element: type, dimension, numbers of nodes, of faces and of nodes of a face, `refInvMass`
(src/evolution/HesthavenEvolution.cpp:46-54, for triangles the block of element 0,
src/evolution/HesthavenEvolutionMethods.cpp:165-198), and its faces with their quadrature points. -/
structure Ref (K : Type) where
  geom  : Geom
  dim   : Nat
  n     : Nat
  nF    : Nat
  nf    : Nat
  inv   : Nat → Nat → K
  faces : Nat → Op.Face Unit K

/-- src/evolution/HesthavenEvolutionMethods.cpp:270-287: face mass matrix of face `f` (assembling a single face on a single
element gives its element matrix). -/
def surface (R : Ref K) (f : Nat) : Mat K := ⟨R.n, R.n, Op.hesthavenFlux (R.faces f)⟩

/-- src/evolution/HesthavenEvolutionMethods.cpp:289-300 `assembleEmat` and src/evolution/HesthavenEvolution.cpp:74-78; `none` if
the number of columns left is not that of the block they are assigned to (an assertion of Eigen). -/
def emat (R : Ref K) : Option (Nat → Nat → K) :=
  if (List.range R.nF).all (fun f => decide ((removeZeroColumns (surface R f)).cols = R.nf)) then
    some fun i q => (removeZeroColumns (surface R (q / R.nf))).val i (q % R.nf) *
      (if R.dim = 3 ∧ R.geom = .tetrahedron then 2 else 1)
  else none

/-- src/evolution/HesthavenEvolution.cpp:365: `refLIFT_`. -/
def refLift (R : Ref K) (E : Nat → Nat → K) (i q : Nat) : K := ∑ k ∈ Finset.range R.n, R.inv i k * E k q

/-- What is read from an element and its one-element sub-mesh: volume, determinant of its transformation, derivative matrices,
and determinant and normal (`CalcOrtho`) of each of its faces.
(src/evolution/HesthavenEvolutionMethods.h:66-73, src/evolution/HesthavenEvolution.cpp:134-205) -/
structure Elem (K : Type) where
  vol : K
  J   : K
  D   : Fin 3 → Nat → Nat → K
  sJ  : Nat → K
  nor : Nat → V3 K

/-- src/evolution/HesthavenEvolution.cpp:150-170 `storeDirectionalMatrices`; the derivative matrix of a direction beyond the
dimension is zero (src/components/DGOperatorFactory.h:426-465).  Storing equal matrices once changes nothing (C39). -/
def dirMat (R : Ref K) (e : Elem K) (d : Fin 3) (i j : Nat) : K :=
  (∑ k ∈ Finset.range R.n, R.inv i k * (if d.val ≥ R.dim then 0 else e.D d k j)) * referenceVolume R.geom / e.vol

/-- src/evolution/HesthavenEvolution.cpp:172-205 `storeFaceInformation`: normal at place `q` of the element. -/
def normalAt (R : Ref K) (e : Elem K) (q : Nat) : V3 K := fun d =>
  if d.val < R.dim then e.nor (q / R.nf) d / e.sJ (q / R.nf) else 0

/-- src/evolution/HesthavenEvolution.cpp:172-205 `storeFaceInformation`: `fscale`. -/
def fscale (R : Ref K) (e : Elem K) (q : Nat) : K := e.sJ (q / R.nf) * 2 / e.J

/-- Number of face places of an element. (src/evolution/HesthavenEvolution.cpp:178-181) -/
def Ref.places (R : Ref K) : Nat := R.nF * R.nf

/-- The matrices of all the elements: node `i` of element `e` has the number `n e + i`, place `q` the position `nF nf e + q`
(src/evolution/HesthavenEvolutionMethods.cpp:35-57).  `lift` is src/evolution/HesthavenEvolution.cpp:126-132 `applyLIFT`. -/
def ops (R : Ref K) (E : Nat → Nat → K) (el : Nat → Elem K) : Ops K where
  D := fun d v i => ∑ k ∈ Finset.range R.n, dirMat R (el (i / R.n)) d (i % R.n) k * v (i / R.n * R.n + k)
  lift := fun flux i => ∑ q ∈ Finset.range R.places, refLift R E (i % R.n) q *
    (flux (i / R.n * R.places + q) * (fscale R (el (i / R.n)) q / 2))

/-- The normals of all the positions. (src/evolution/HesthavenEvolution.cpp:185-204) -/
def normals (R : Ref K) (el : Nat → Elem K) (p : Nat) : V3 K := normalAt R (el (p / R.places)) (p % R.places)

/-- src/evolution/HesthavenEvolution.cpp:450-542 `Mult`, for meshes of linear elements. -/
def nodalMult (R : Ref K) (E : Nat → Nat → K) (el : Nat → Elem K) (c : Nat → Nat × Nat) (b : BdrMaps) (alpha : K)
    (sources : List (Option (Fields K))) (tf : List TfNode) (u : Fields K) : Fields K :=
  let j := evaluateTFSF sources tf (applyBC (fun _ => false) alpha b u (jumps c u))
  { e := fun i x => outE (ops R E el) alpha (normals R el) u j x i
    h := fun i x => outH (ops R E el) alpha (normals R el) u j x i }

end Dgtd.Nodal
