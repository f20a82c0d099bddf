/-
Model of the one-dimensional mesh of a thin layer (SGBC): src/solver/SolverExtension.cpp and
src/components/Model.h.

`double` is a field `K`.  A division of the total width by a zero number of segments is not a number and is
modelled as failure (`none`).
-/
import Verif.Model.Assoc
import Mathlib.Algebra.Order.Field.Basic

namespace Dgtd.Sgbc

variable {K : Type} [Field K]

/-- src/components/Model.h:78-86 `SGBCLayer`; the material is an opaque `M`. -/
structure Layer (K M : Type) where
  material : M
  width : K
  segs : Nat
  order : Nat
  nSkin : K
  deriving DecidableEq, Repr

variable {M : Type}

/-- src/components/Model.h:97-101 `totalWidth`. -/
def totalWidth (ls : List (Layer K M)) : K := ls.foldl (fun w l => w + l.width) 0

/-- src/components/Model.h:104-108 `totalSegments`. -/
def totalSegments (ls : List (Layer K M)) : Nat := ls.foldl (fun n l => n + l.segs) 0

/-- src/components/Model.h:111-115 `maxOrder`. -/
def maxOrder (ls : List (Layer K M)) : Nat := ls.foldl (fun o l => max o l.order) 1

/-- src/solver/SolverExtension.cpp:489 `n_ghost_elements_`. -/
def nGhost (ls : List (Layer K M)) : Nat := max 3 (maxOrder ls + 1)

/-- src/solver/SolverExtension.cpp:68-71, the segments of one layer: `x += dx; vertices.push_back(x)`. -/
def pushSegs (dx : K) : Nat → K × List K → K × List K
  | 0, s => s
  | n + 1, (x, vs) => pushSegs dx n (x + dx, vs ++ [x + dx])

/-- src/solver/SolverExtension.cpp:66-72, all the layers. -/
def pushLayers (ls : List (Layer K M)) (s : K × List K) : K × List K :=
  ls.foldl (fun s l => pushSegs (l.width / l.segs) l.segs s) s

/-- src/solver/SolverExtension.cpp:57-77, the vertex coordinates. -/
def vertices (ls : List (Layer K M)) (ng : Nat) : List K :=
  let gdx := totalWidth ls / totalSegments ls
  let left := (List.range (ng + 1)).map (fun (i : Nat) => (i : K) * gdx)
  let (x, vs) := pushLayers ls ((ng : K) * gdx, left)
  vs ++ (List.range ng).map (fun (i : Nat) => x + ((i + 1 : Nat) : K) * gdx)

/-- `mesh.SetAttribute(i, a)`; writing outside the element list is undefined behaviour. (src/solver/SolverExtension.cpp:102, 108, 114) -/
def setAttr (as : List Nat) (i a : Nat) : Option (List Nat) :=
  if i < as.length then some (as.set i a) else none

/-- A loop `for s < n: mesh.SetAttribute(i0 + s, a)`. (src/solver/SolverExtension.cpp:101-115) -/
def setAttrs (a : Nat) : Nat → Nat → List Nat → Option (List Nat)
  | 0, _, as => some as
  | n + 1, i, as => do setAttrs a n (i + 1) (← setAttr as i a)

/-- src/solver/SolverExtension.cpp:105-111: per-layer attributes, returning the running `elem_idx`. -/
def setLayerAttrs : List (Layer K M) → Nat → Nat → List Nat → Option (Nat × List Nat)
  | [], _, idx, as => some (idx, as)
  | l :: ls, li, idx, as => do setLayerAttrs ls (li + 1) (idx + l.segs) (← setAttrs (li + 1) l.segs idx as)

/-- src/solver/SolverExtension.cpp:100-115. -/
def attributes (ls : List (Layer K M)) (ng : Nat) (as : List Nat) : Option (List Nat) := do
  let vac := ls.length + 1
  let as ← setAttrs vac ng 0 as
  let (idx, as) ← setLayerAttrs ls 0 ng as
  setAttrs vac ng idx as

/-- The one-dimensional mesh: coordinates, segments (pairs of vertices), element attributes and boundary
points (vertex, attribute). (src/solver/SolverExtension.cpp:49-120) -/
structure Mesh (K : Type) where
  verts : List K
  elems : List (Nat × Nat)
  attrs : List Nat
  bdr : List (Nat × Nat)
  deriving DecidableEq, Repr

/-- src/solver/SolverExtension.cpp:49-120 `buildSGBCMesh`. -/
def buildMesh (ls : List (Layer K M)) (ng : Nat) : Option (Mesh K) := do
  if totalSegments ls = 0 then none else
  let vs := vertices ls ng
  let ne := vs.length - 1
  let as ← attributes ls ng (List.replicate ne 1)
  some { verts := vs
         elems := (List.range ne).map (fun i => (i, i + 1))
         attrs := as
         bdr := [(0, 1), (vs.length - 1, 2), (ng, 3), (ng + totalSegments ls, 4)] }

/-- src/solver/SolverExtension.cpp:128-130: `insert({li + 1, layers[li].material})` for each layer. -/
def layerMaterials : List (Layer K M) → Nat → List (Nat × M) → List (Nat × M)
  | [], _, m => m
  | l :: ls, li, m => layerMaterials ls (li + 1) (Assoc.insert m (li + 1) l.material)

/-- src/solver/SolverExtension.cpp:124-131: `geom_tag_sgbc_mat`. -/
def materialMap (ls : List (Layer K M)) (vacuum : M) : List (Nat × M) :=
  Assoc.insert (layerMaterials ls 0 []) (ls.length + 1) vacuum

/-- Number of degrees of freedom of one field component on a segment mesh with `ne` elements of order `p`
(MFEM's discontinuous space orders them element by element): src/solver/SolverExtension.cpp:187-189. -/
def localSize (ne p : Nat) : Nat := ne * (p + 1)

/-- src/solver/SolverExtension.cpp:191-193 `getLeftInterfaceIndex`. -/
def leftIndex (ng p : Nat) : Nat := ng * (p + 1)

/-- src/solver/SolverExtension.cpp:195-198 `getRightInterfaceIndex` (as an integer, the subtraction is on
`int`). -/
def rightIndex (size ng p : Nat) : Int := ((size : Int) - 1) - (ng : Int) * ((p : Int) + 1)

end Dgtd.Sgbc
