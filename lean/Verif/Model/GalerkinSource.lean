/-
Model of the case of `Verif.Model.OpSource` that is assembled from a mesh: the marked faces of the mesh and the degrees of freedom of the source
sub-meshes next to its matrices.  src/components/DGOperatorFactory.h `buildTFSFGlobalOperator`, src/components/Model.cpp
`getTotalFieldScatteredFieldToMarker`, src/evolution/GlobalEvolution.cpp.

One MPI rank (`Verif.Model.ParSource` splits the case over ranks).
-/
import Verif.Model.GalerkinMass
import Verif.Model.OpSource

namespace Dgtd.Op

variable {ι K : Type} [Fintype ι] [DecidableEq ι] [Field K] [LinearOrder K]

/-- What the plane waves add to the right-hand side of the implicit solve: nothing below the threshold.
(src/evolution/GlobalEvolution.cpp:1139-1144, 551-626) -/
def sourceTerm (C : Case ι K) (waves : List (State ι K)) : State ι K :=
  if sourceNorm2 C (sourceField C waves) < skip2 then fun _ _ _ => 0
  else fun f d i => -applyBlocks (sourceBlocks C C.tfFaces) (sourceField C waves) f d i

end Dgtd.Op

namespace Dgtd.Galerkin
open Dgtd.Op

variable {n : Nat} {ι : Type} [DecidableEq ι]

/-- What the operators of the global evolution read of a mesh with a total-field surface: the faces whose attribute is in the total-field marker
(`tf`), the degrees of freedom of the elements of the source sub-meshes (`sub`) and of the scattered-field one (`sfSub`).
(src/components/DGOperatorFactory.h:1364-1428, src/components/Model.cpp:53-119, src/evolution/GlobalEvolution.cpp:318-350) -/
noncomputable def Setup.source (S : Setup n ι) (P : Fem n ι ℝ) (tf : MeshFace n ι → Bool) (sub : List ι) (sfSub : Option (List ι)) : Case ι ℝ :=
  { dim := P.prob.dim
    alpha := P.prob.alpha
    interior := S.interior.map fun q => ⟨q.1, tf q.2, q.2.fem.toFace⟩
    bdr := P.prob.bdr
    Minv := P.prob.Minv
    Msig := P.prob.Msig
    D := P.prob.D
    sub := sub
    sfSub := sfSub }

end Dgtd.Galerkin
