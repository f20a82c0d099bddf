/-
Model of the source-face operators of src/components/DGOperatorFactory.h and of what src/evolution/GlobalEvolution.cpp
`Mult` does with them: injection of plane waves on the total-field surface, and of the surface fields of thin layers.

Built on `Model/Op.lean` (same idealisations).  Simplification: vectors with six blocks are states with six components;
`Model/SgbcEvol.lean` has the flat vectors, index ranges and the scratch vector.  One MPI rank.
-/
import Verif.Model.Op

namespace Dgtd.Op

variable {ι K : Type} [Fintype ι] [DecidableEq ι] [Field K] [LinearOrder K]

/-- An interior face of the mesh with the interior-boundary condition of its attribute, if any, and whether the
attribute is in the total-field marker (`getTotalFieldScatteredFieldToMarker`). (src/components/Model.cpp:53-119) -/
structure IFace (ι K : Type) where
  cond : Option BdrCond
  tf : Bool
  face : Face ι K

/-- What the assembly of all operators reads: like `Prob`, with the total-field marker, and the degrees of freedom of
the elements of the source sub-meshes (`tfsf_sub_to_parent_ids_`; all elements, and those of the scattered-field
sub-mesh if there is one). (src/components/DGOperatorFactory.h:677-711, 1364-1425, src/evolution/GlobalEvolution.cpp:318-350) -/
structure Case (ι K : Type) where
  dim : Nat
  alpha : K
  interior : List (IFace ι K)
  bdr : List (Option BdrCond × Face ι K)
  Minv : FieldT → Matrix ι ι K
  Msig : Matrix ι ι K
  D : Dir → Matrix ι ι K
  sub : List ι
  sfSub : Option (List ι)

/-- The problem of the global operator. (src/components/DGOperatorFactory.h:1427-1560) -/
def Case.prob (C : Case ι K) : Prob ι K :=
  { dim := C.dim
    alpha := C.alpha
    interior := C.interior.map fun q => (q.cond, q.face)
    bdr := C.bdr
    Minv := C.Minv
    Msig := C.Msig
    D := C.D }

/-- DGOperatorFactory.h:1376-1398 `buildSourceFaceOperator(TotalFieldIn)`: faces of the total-field marker. -/
def Case.tfFaces (C : Case ι K) : List (Face ι K) :=
  C.interior.filterMap fun q => if q.tf = true then some q.face else none

/-- DGOperatorFactory.h:1385-1390 `buildSourceFaceOperator(SGBC)`: interior faces with a thin layer (exterior ones are
skipped by `GetInternalBdrFaceTransformations`, src/mfemExtension/BilinearForm_IBFI.cpp:62). -/
def Case.sgbcFaces (C : Case ι K) : List (Face ι K) :=
  C.interior.filterMap fun q => if q.cond = some .SGBC then some q.face else none

/-- DGOperatorFactory.h:677-687 `buildSourceFaceIBFIZeroNormalSubOperator`. -/
def sourceZero (alpha : K) (fs : List (Face ι K)) : Matrix ι ι K := assemble (fs.map fun F => (F, zeroNormal alpha F))

/-- DGOperatorFactory.h:689-699 `buildSourceFaceIBFIOneNormalSubOperator`. -/
def sourceOne (fs : List (Face ι K)) (d : Dir) : Matrix ι ι K := assemble (fs.map fun F => (F, oneNormal d 1 F))

/-- DGOperatorFactory.h:701-711 `buildSourceFaceIBFITwoNormalSubOperator`. -/
def sourceTwo (alpha : K) (fs : List (Face ι K)) (d d2 : Dir) : Matrix ι ι K :=
  assemble (fs.map fun F => (F, twoNormal d d2 alpha F))

/-- DGOperatorFactory.h:1405-1428 `buildSourceFaceOperator(marker)` with 966-1048 `addGlobalSourceFaceIBFI…`. -/
def sourceBlocks (C : Case ι K) (fs : List (Face ι K)) : List (GBlock ι K) :=
  oneBlocks C.dim (fun f x => C.Minv f * sourceOne fs x) ++
  zeroBlocks (fun f => C.Minv f * sourceZero C.alpha fs) ++
  twoBlocks C.dim (fun f d d2 => C.Minv f * sourceTwo C.alpha fs d d2)

/-- src/solver/SourcesManager.cpp:162-186: the sign mask. -/
def tfsfSign (C : Case ι K) (i : ι) : K :=
  match C.sfSub with
  | none => 1
  | some l => if i ∈ l then -(1 / 2) else 1 / 2

/-- src/solver/SourcesManager.cpp:204-232 `evalTimeVarFieldDirect` followed by the scatter of
src/evolution/GlobalEvolution.cpp:600-611; `waves` are the values of the sources at the nodes at the present time. -/
def sourceField (C : Case ι K) (waves : List (State ι K)) : State ι K := fun f d i =>
  if i ∈ C.sub then waves.foldl (fun s w => s + w f d i * tfsfSign C i) 0 else 0

/-- src/evolution/GlobalEvolution.cpp:587-598: squared norm of the source values. -/
def sourceNorm2 (C : Case ι K) (g : State ι K) : K :=
  (fields.flatMap fun f => dirs.flatMap fun d => C.sub.map fun i => g f d i * g f d i).sum

/-- `tfsf_skip_threshold_`, squared. (src/evolution/GlobalEvolution.h:100) -/
def skip2 : K := 1 / 10000000000000000

/-- src/evolution/GlobalEvolution.cpp:779-826, 551-626: right-hand side without thin layers, `A v - S g`, where the
source is skipped below the threshold. -/
def sourceRhs (C : Case ι K) (waves : List (State ι K)) (v : State ι K) : State ι K :=
  if sourceNorm2 C (sourceField C waves) < skip2 then globalMult C.prob v
  else fun f d i => globalMult C.prob v f d i -
    applyBlocks (sourceBlocks C C.tfFaces) (sourceField C waves) f d i

/-! ### thin layers -/

/-- What a layer surface shows (src/evolution/GlobalEvolution.cpp:889-890, 948-949). -/
inductive Surf (K : Type)
  | PEC
  | PMC
  | SMA
  /-- the field at the layer's surface, in global axes -/
  | slab (v : FieldT → Dir → K)

/-- One `SGBCState` of an interior face: its two nodes and its two surfaces. (src/solver/SolverExtension.h:44-65) -/
structure Pair (ι K : Type) where
  first : ι
  second : ι
  left : Surf K
  right : Surf K

/-- Lines 843-873 `fillBCSlot`: the six values written for a surface seen from a node with fields `own`.
(src/evolution/GlobalEvolution.cpp) -/
def fillValues (own : FieldT → Dir → K) : Surf K → FieldT → Dir → K
  | .PEC, .E, d => -own .E d
  | .PEC, .H, d => own .H d
  | .PMC, .E, d => own .E d
  | .PMC, .H, d => -own .H d
  | .SMA, f, d => own f d
  | .slab v, f, d => v f d

/-- Assignment of the six values of a node. (src/evolution/GlobalEvolution.cpp:843-881) -/
def setNode (x : State ι K) (i : ι) (v : FieldT → Dir → K) : State ι K := fun f d j => if j = i then v f d else x f d j

/-- Pass 1 (lines 883-903): scratch vector for the first sides; the vector is zero before. (src/evolution/GlobalEvolution.cpp) -/
def pass1 (u : State ι K) (l : List (Pair ι K)) : State ι K :=
  l.foldl (fun x s => setNode (setNode x s.first fun f d => u f d s.first) s.second
    (fillValues (fun f d => u f d s.first) s.left)) (fun _ _ _ => 0)

/-- Pass 2 (lines 942-961). (src/evolution/GlobalEvolution.cpp) -/
def pass2 (u : State ι K) (l : List (Pair ι K)) : State ι K :=
  l.foldl (fun x s => setNode (setNode x s.first (fillValues (fun f d => u f d s.second) s.right)) s.second
    fun f d => u f d s.second) (fun _ _ _ => 0)

/-- Lines 905-921, 963-979: add the rows of the listed nodes (each listed once, lines 279-308). (src/evolution/GlobalEvolution.cpp) -/
def addNodes (C : Case ι K) (dofs : List ι) (x out : State ι K) : State ι K := fun f d i =>
  if i ∈ dofs then out f d i + applyBlocks (sourceBlocks C C.sgbcFaces) x f d i else out f d i

/-- Parts 3, 4 and 6 of `Mult` (lines 779-826, 831-1001) without plane waves; `e1`, `e2` are the nodes of the elements
on the first and on the second sides (lines 279-308). (src/evolution/GlobalEvolution.cpp) -/
def layerRhs (C : Case ι K) (l : List (Pair ι K)) (e1 e2 : List ι) (u : State ι K) : State ι K :=
  addNodes C e2 (pass2 u l) (addNodes C e1 (pass1 u l) (globalMult C.prob u))

end Dgtd.Op
