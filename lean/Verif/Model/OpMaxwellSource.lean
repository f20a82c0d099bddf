/-
Model of how the component-wise evolution operator launches plane waves (src/evolution/MaxwellEvolution.cpp:49-105,
275-332), on one MPI rank.

The operators are assembled on the sub-mesh of the elements next to the total-field surface, with a model without boundary
conditions and with vacuum everywhere (`GeomTagToMaterialInfo()`, src/components/Model.cpp:60-62, and attribute one for all
elements, src/components/SubMesher.cpp:292-298).  Simplification: degrees of freedom of the sub-mesh are named by the
degrees of freedom of the mesh they are transferred to (`MaxwellTransferMap`, C35).
-/
import Verif.Model.OpMaxwell
import Verif.Model.OpSource

namespace Dgtd.Op

variable {ι K : Type} [Fintype ι] [DecidableEq ι] [Field K] [LinearOrder K]

/-- Interior faces of the sub-mesh: all faces between two of its elements, whatever their attribute.
(src/evolution/MaxwellEvolution.cpp:49-105) -/
def Case.subFaces (C : Case ι K) : List (Face ι K) :=
  C.interior.filterMap fun q => if ∀ i < q.face.ndof1 + q.face.ndof2, q.face.dofs i ∈ C.sub then some q.face else none

/-- src/evolution/MaxwellEvolution.cpp:52-56 `tfsfPD`: no conditions on any face (so exterior faces of the sub-mesh have
no integrator), mass matrices of vacuum `Mvac`.  Derivatives and conductivity are not assembled (zero here). -/
def Case.subProb (C : Case ι K) (Mvac : FieldT → Matrix ι ι K) : Prob ι K :=
  { dim := C.dim
    alpha := C.alpha
    interior := C.subFaces.map fun F => (none, F)
    bdr := []
    Minv := Mvac
    Msig := 0
    D := fun _ => 0 }

/-- src/components/SubMesher.cpp:922-936 `TransferAdd` (`a = 1`) and `TransferSub` (`a = -1`). -/
def transfer (C : Case ι K) (a : K) (src dst : ι → K) : ι → K := fun i => if i ∈ C.sub then dst i + a * src i else dst i

/-- src/evolution/MaxwellEvolution.cpp:293-326, the transfers into `hNew[x]` in program order. -/
def hSource (C : Case ι K) (Mvac : FieldT → Matrix ι ι K) (g : State ι K) (x : Dir) (r : ι → K) : ι → K :=
  let P := C.subProb Mvac
  let y := x + 1
  let z := x + 2
  let r := transfer C (-1) ((MFN P .H .E y).mulVec (g .E z)) r
  let r := transfer C 1 ((MFN P .H .E z).mulVec (g .E y)) r
  let r := transfer C (-1) ((MFNN P .H .H 0 x).mulVec (g .H 0)) r
  let r := transfer C (-1) ((MFNN P .H .H 1 x).mulVec (g .H 1)) r
  let r := transfer C (-1) ((MFNN P .H .H 2 x).mulVec (g .H 2)) r
  transfer C 1 ((MP P .H).mulVec (g .H x)) r

/-- src/evolution/MaxwellEvolution.cpp:293-326, the transfers into `eNew[x]` in program order. -/
def eSource (C : Case ι K) (Mvac : FieldT → Matrix ι ι K) (g : State ι K) (x : Dir) (r : ι → K) : ι → K :=
  let P := C.subProb Mvac
  let y := x + 1
  let z := x + 2
  let r := transfer C 1 ((MFN P .E .H y).mulVec (g .H z)) r
  let r := transfer C (-1) ((MFN P .E .H z).mulVec (g .H y)) r
  let r := transfer C (-1) ((MFNN P .E .E 0 x).mulVec (g .E 0)) r
  let r := transfer C (-1) ((MFNN P .E .E 1 x).mulVec (g .E 1)) r
  let r := transfer C (-1) ((MFNN P .E .E 2 x).mulVec (g .E 2)) r
  transfer C 1 ((MP P .E).mulVec (g .E x)) r

/-- src/evolution/MaxwellEvolution.cpp:275-331: the body of the loop over the sources for one of them. -/
def addSource (C : Case ι K) (Mvac : FieldT → Matrix ι ι K) (g : State ι K) (out : State ι K) : State ι K
  | .E => fun x => eSource C Mvac g x (out .E x)
  | .H => fun x => hSource C Mvac g x (out .H x)

/-- src/evolution/MaxwellEvolutionMethods.cpp:8-34 `evalTimeVarFunction`, its second part: the first one is only used
after `initDirectPlanewaveEval`, which this operator does not call.  `evalTimeVarField`
(src/solver/SourcesManager.cpp:38-70) projects one source after the other onto the same grid functions, so the last one
stays (C32). -/
def lastField (C : Case ι K) (waves : List (State ι K)) : State ι K :=
  match waves.getLast? with
  | none => fun _ _ _ => 0
  | some w => sourceField C [w]

/-- src/evolution/MaxwellEvolution.cpp:200-332 `Mult`. -/
def maxwellSourceRhs (C : Case ι K) (Mvac : FieldT → Matrix ι ι K) (waves : List (State ι K)) (v : State ι K) : State ι K :=
  waves.foldl (fun out _ => addSource C Mvac (lastField C waves) out) (maxwellMult C.prob v)

end Dgtd.Op
