/-
Model of the component-wise evolution operator (src/evolution/MaxwellEvolution.cpp) without sources, on one
MPI rank (the flux vectors `eFlux`, `hFlux` are then the local fields).
-/
import Verif.Model.Op

namespace Dgtd.Op

variable {ι K : Type} [Fintype ι] [DecidableEq ι] [Field K] [LinearOrder K]

/-- src/components/DGOperatorFactory.h:725-741 `buildMaxwellDirectionalOperator`. -/
def MS (P : Prob ι K) (f : FieldT) (d : Dir) : Matrix ι ι K := P.Minv f * derivativeSub P d

/-- src/components/DGOperatorFactory.h:743-754 `buildMaxwellZeroNormalOperator`. -/
def MP (P : Prob ι K) (f : FieldT) : Matrix ι ι K := P.Minv f * zeroNormalSub P f

/-- src/components/DGOperatorFactory.h:756-773 `buildMaxwellOneNormalOperator`. -/
def MFN (P : Prob ι K) (f f2 : FieldT) (d : Dir) : Matrix ι ι K := P.Minv f * oneNormalSub P f2 d

/-- src/components/DGOperatorFactory.h:775-795 `buildMaxwellTwoNormalOperator`. -/
def MFNN (P : Prob ι K) (f f2 : FieldT) (d d2 : Dir) : Matrix ι ι K := P.Minv f * twoNormalSub P f2 d d2

/-- src/components/DGOperatorFactory.h:797-808 `buildMaxwellIntBdrZeroNormalOperator`. -/
def MPB (P : Prob ι K) (f : FieldT) : Matrix ι ι K := P.Minv f * zeroNormalIBFI P f

/-- src/components/DGOperatorFactory.h:810-827 `buildMaxwellIntBdrOneNormalOperator`. -/
def MFNB (P : Prob ι K) (f f2 : FieldT) (d : Dir) : Matrix ι ι K := P.Minv f * oneNormalIBFI P f2 d

/-- src/components/DGOperatorFactory.h:829-849 `buildMaxwellIntBdrTwoNormalOperator`. -/
def MFNNB (P : Prob ι K) (f f2 : FieldT) (d d2 : Dir) : Matrix ι ι K := P.Minv f * twoNormalIBFI P f2 d d2

/-- `A->AddMult(x, y, a)` as the increment `a A x`. (src/evolution/MaxwellEvolution.cpp:230-270) -/
def addMult (A : Matrix ι ι K) (x : ι → K) (a : K) (y : ι → K) : ι → K := y + a • A.mulVec x

/-- src/evolution/MaxwellEvolution.cpp:225-273, the increments of `hNew[x]` in program order. -/
def hNew (P : Prob ι K) (u : State ι K) (x : Dir) : ι → K :=
  let y := x + 1
  let z := x + 2
  let r := addMult (MS P .H y) (u .E z) (-1) 0
  let r := addMult (MS P .H z) (u .E y) 1 r
  let r := addMult (MFN P .H .E y) (u .E z) 1 r
  let r := addMult (MFN P .H .E z) (u .E y) (-1) r
  let r := addMult (MFNN P .H .H 0 x) (u .H 0) 1 r
  let r := addMult (MFNN P .H .H 1 x) (u .H 1) 1 r
  let r := addMult (MFNN P .H .H 2 x) (u .H 2) 1 r
  let r := addMult (MP P .H) (u .H x) (-1) r
  if hasIntBdr P then
    let r := addMult (MFNB P .H .E y) (u .E z) 1 r
    let r := addMult (MFNB P .H .E z) (u .E y) (-1) r
    let r := addMult (MFNNB P .H .H 0 x) (u .H 0) 1 r
    let r := addMult (MFNNB P .H .H 1 x) (u .H 1) 1 r
    let r := addMult (MFNNB P .H .H 2 x) (u .H 2) 1 r
    addMult (MPB P .H) (u .H x) (-1) r
  else r

/-- src/evolution/MaxwellEvolution.cpp:225-273, the increments of `eNew[x]` in program order. -/
def eNew (P : Prob ι K) (u : State ι K) (x : Dir) : ι → K :=
  let y := x + 1
  let z := x + 2
  let r := addMult (MS P .E y) (u .H z) 1 0
  let r := addMult (MS P .E z) (u .H y) (-1) r
  let r := addMult (MFN P .E .H y) (u .H z) (-1) r
  let r := addMult (MFN P .E .H z) (u .H y) 1 r
  let r := addMult (MFNN P .E .E 1 x) (u .E 1) 1 r
  let r := addMult (MFNN P .E .E 0 x) (u .E 0) 1 r
  let r := addMult (MFNN P .E .E 2 x) (u .E 2) 1 r
  let r := addMult (MP P .E) (u .E x) (-1) r
  if hasIntBdr P then
    let r := addMult (MFNB P .E .H y) (u .H z) (-1) r
    let r := addMult (MFNB P .E .H z) (u .H y) 1 r
    let r := addMult (MFNNB P .E .E 0 x) (u .E 0) 1 r
    let r := addMult (MFNNB P .E .E 1 x) (u .E 1) 1 r
    let r := addMult (MFNNB P .E .E 2 x) (u .E 2) 1 r
    addMult (MPB P .E) (u .E x) (-1) r
  else r

/-- src/evolution/MaxwellEvolution.cpp:200-273 `Mult` without sources.  There is no conductivity term
(`evalConductivity`, lines 12-17, is never called). -/
def maxwellMult (P : Prob ι K) (u : State ι K) : State ι K
  | .E => eNew P u
  | .H => hNew P u

end Dgtd.Op
