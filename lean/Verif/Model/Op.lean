/-
Model of the spatial evolution operators: face integrators
(src/mfemExtension/BilinearIntegrators.cpp, IntegratorFunctions.cpp), the sub-operators and the block
layout of the global operator (src/components/DGOperatorFactory.h) and the component-wise operator
(src/evolution/MaxwellEvolution.cpp).

`double` is an element of an ordered field `K`.  Finite-element geometry and shape functions are inputs:
a face carries its quadrature points, each with the quadrature weight, the surface Jacobian
`Trans.Weight()`, the (unnormalised) normal of `CalcOrtho` and the values of the shape functions of the
two neighbouring elements.  One MPI rank (no face-neighbour degrees of freedom).
-/
import Verif.Model.Csr
import Mathlib.Data.Matrix.Mul
import Mathlib.Algebra.Order.Field.Basic
import Mathlib.Algebra.BigOperators.Fin

namespace Dgtd.Op

/-- src/components/Types.h `FieldType` (`E = 0`, `H = 1`). -/
inductive FieldT
  | E
  | H
  deriving DecidableEq, Repr

/-- Numeric value of the enumerator, used for offsets and signs. (src/components/Types.h:37) -/
def FieldT.idx : FieldT → Nat
  | .E => 0
  | .H => 1

/-- src/components/Types.h `Direction`. (lines 66-69) -/
abbrev Dir := Fin 3

/-- The boundary conditions that reach the operator assembly: the keys inserted in
src/components/Model.cpp:102-119 `assembleBdrToMarkerMaps`. -/
inductive BdrCond
  | PEC
  | PMC
  | SMA
  | SGBC
  deriving DecidableEq, Repr

/-- src/components/DGOperatorFactory.h:47-58. -/
def altField : FieldT → FieldT
  | .E => .H
  | .H => .E

variable {ι K : Type} [Fintype ι] [DecidableEq ι] [Field K] [LinearOrder K]

/-- src/components/DGOperatorFactory.h:21-35: the tables `bdrCentCoeff` and `bdrUpwindCoeff` (they have
the same contents, so `bdrCoeffCheck`, lines 117-129, does not depend on alpha). -/
def bdrCoeff : BdrCond → FieldT → K
  | .PEC, .E => 2
  | .PEC, .H => 0
  | .PMC, .E => 0
  | .PMC, .H => 2
  | .SMA, _ => 1
  | .SGBC, _ => 1

/-- A quadrature point of a face: `ip.weight`, `Trans.Weight()`, the normal (size = mesh dimension) and
the shape functions of both sides evaluated there. (src/mfemExtension/BilinearIntegrators.cpp:32-50) -/
structure Pt (K : Type) where
  w : K
  W : K
  nor : List K
  sh1 : Nat → K
  sh2 : Nat → K

/-- A face: number of degrees of freedom of both sides (`ndof2 = 0` on an exterior face,
src/mfemExtension/IntegratorFunctions.cpp:100-108), their global numbers (first side then second, the
order in which MFEM passes `vdofs`), and its quadrature points. -/
structure Face (ι K : Type) where
  ndof1 : Nat
  ndof2 : Nat
  dofs : Nat → ι
  pts : List (Pt K)

/-- Element matrix. (src/mfemExtension/BilinearIntegrators.cpp:9-52) -/
abbrev EMat (K : Type) := Nat → Nat → K

/-- `elmat(r, c) += v`. (src/mfemExtension/IntegratorFunctions.cpp:85-98) -/
def addAt (m : EMat K) (r c : Nat) (v : K) : EMat K :=
  fun i j => if i = r ∧ j = c then m i j + v else m i j

/-- src/mfemExtension/IntegratorFunctions.cpp:85-98 `buildFaceMatrix`. -/
def buildFaceMatrix (w : K) (ndofA ndofB offR offC : Nat) (shA shB : Nat → K) (m : EMat K) : EMat K :=
  (List.range ndofA).foldl (fun m i => (List.range ndofB).foldl (fun m j =>
    if offR = offC then addAt m (i + offR) (j + offC) (w * shA i * shB j)
    else addAt m (i + offR) (j + offC) (-(w * shA i * shB j))) m) m

/-- src/mfemExtension/IntegratorFunctions.cpp:110-117 `buildNormalTerm`: components beyond the mesh
dimension are zero. -/
def normalTerm (nor : List K) (d : Dir) : K := (nor[d.val]?).getD 0

/-- BilinearIntegrators.cpp:38-51: one point of the zero-normal integrator. -/
def zeroNormalPt (beta : K) (f : Face ι K) (m : EMat K) (p : Pt K) : EMat K :=
  let w := p.w * beta * (1 / 2) * p.W
  if w ≠ 0 then
    let m := buildFaceMatrix w f.ndof1 f.ndof1 0 0 p.sh1 p.sh1 m
    if f.ndof2 ≠ 0 then
      let m := buildFaceMatrix w f.ndof1 f.ndof2 0 f.ndof1 p.sh1 p.sh2 m
      let m := buildFaceMatrix w f.ndof2 f.ndof1 f.ndof1 0 p.sh2 p.sh1 m
      buildFaceMatrix w f.ndof2 f.ndof2 f.ndof1 f.ndof1 p.sh2 p.sh2 m
    else m
  else m

/-- BilinearIntegrators.cpp:9-52 `MaxwellDGZeroNormalJumpIntegrator::AssembleFaceMatrix`. -/
def zeroNormal (beta : K) (f : Face ι K) : EMat K :=
  f.pts.foldl (zeroNormalPt beta f) (fun _ _ => 0)

/-- BilinearIntegrators.cpp:84-98: one point of the one-normal integrator. -/
def oneNormalPt (d : Dir) (beta : K) (f : Face ι K) (m : EMat K) (p : Pt K) : EMat K :=
  let b := beta * normalTerm p.nor d
  let w := p.w * b * (1 / 2)
  if w ≠ 0 then
    let m := buildFaceMatrix w f.ndof1 f.ndof1 0 0 p.sh1 p.sh1 m
    if f.ndof2 ≠ 0 then
      let m := buildFaceMatrix w f.ndof1 f.ndof2 0 f.ndof1 p.sh1 p.sh2 m
      let m := buildFaceMatrix (-w) f.ndof2 f.ndof1 f.ndof1 0 p.sh2 p.sh1 m
      buildFaceMatrix (-w) f.ndof2 f.ndof2 f.ndof1 f.ndof1 p.sh2 p.sh2 m
    else m
  else m

/-- BilinearIntegrators.cpp:54-100 `MaxwellDGOneNormalJumpIntegrator::AssembleFaceMatrix`. -/
def oneNormal (d : Dir) (beta : K) (f : Face ι K) : EMat K :=
  f.pts.foldl (oneNormalPt d beta f) (fun _ _ => 0)

/-- BilinearIntegrators.cpp:132-147: one point of the two-normal integrator. -/
def twoNormalPt (d d2 : Dir) (beta : K) (f : Face ι K) (m : EMat K) (p : Pt K) : EMat K :=
  let b := beta * normalTerm p.nor d * normalTerm p.nor d2
  let w := p.w * b * (1 / 2) / p.W
  if w ≠ 0 then
    let m := buildFaceMatrix w f.ndof1 f.ndof1 0 0 p.sh1 p.sh1 m
    if f.ndof2 ≠ 0 then
      let m := buildFaceMatrix w f.ndof1 f.ndof2 0 f.ndof1 p.sh1 p.sh2 m
      let m := buildFaceMatrix w f.ndof2 f.ndof1 f.ndof1 0 p.sh2 p.sh1 m
      buildFaceMatrix w f.ndof2 f.ndof2 f.ndof1 f.ndof1 p.sh2 p.sh2 m
    else m
  else m

/-- BilinearIntegrators.cpp:102-149 `MaxwellDGTwoNormalJumpIntegrator::AssembleFaceMatrix`. -/
def twoNormal (d d2 : Dir) (beta : K) (f : Face ι K) : EMat K :=
  f.pts.foldl (twoNormalPt d d2 beta f) (fun _ _ => 0)

/-- IntegratorFunctions.cpp:152-171 `calculateBetaTerm`; lists of three or more directions throw and are
not modelled (every caller passes zero, one or two). -/
def betaTerm (nor : List K) (dirs : List Dir) (beta : K) : K :=
  match dirs with
  | [] => beta
  | [d] => beta * normalTerm nor d
  | d :: d2 :: _ => beta * normalTerm nor d * normalTerm nor d2

/-- BilinearIntegrators.cpp:386-410: one point of the interior-boundary integrator (the two sides do not
see each other). -/
def interiorJumpPt (dirs : List Dir) (beta : K) (f : Face ι K) (m : EMat K) (p : Pt K) : EMat K :=
  let b := betaTerm p.nor dirs beta
  let w := p.w * b * (1 / 2)
  if w ≠ 0 then
    match dirs with
    | [] =>
      let w := w * p.W
      let m := buildFaceMatrix w f.ndof1 f.ndof1 0 0 p.sh1 p.sh1 m
      buildFaceMatrix w f.ndof2 f.ndof2 f.ndof1 f.ndof1 p.sh2 p.sh2 m
    | [_] =>
      let m := buildFaceMatrix w f.ndof1 f.ndof1 0 0 p.sh1 p.sh1 m
      buildFaceMatrix (-w) f.ndof2 f.ndof2 f.ndof1 f.ndof1 p.sh2 p.sh2 m
    | _ :: _ :: _ =>
      let w := w / p.W
      let m := buildFaceMatrix w f.ndof1 f.ndof1 0 0 p.sh1 p.sh1 m
      buildFaceMatrix w f.ndof2 f.ndof2 f.ndof1 f.ndof1 p.sh2 p.sh2 m
  else m

/-- BilinearIntegrators.cpp:356-412 `MaxwellDGInteriorJumpIntegrator::AssembleFaceMatrix`. -/
def interiorJump (dirs : List Dir) (beta : K) (f : Face ι K) : EMat K :=
  f.pts.foldl (interiorJumpPt dirs beta f) (fun _ _ => 0)

/-- MFEM's `AddSubMatrix(vdofs, vdofs, elmat)` (closed form). (src/mfemExtension/BilinearForm_IBFI.cpp:80) -/
def addSub (f : Face ι K) (m : EMat K) (A : Matrix ι ι K) : Matrix ι ι K :=
  fun r c => A r c + ∑ i ∈ Finset.range (f.ndof1 + f.ndof2), ∑ j ∈ Finset.range (f.ndof1 + f.ndof2),
    if f.dofs i = r ∧ f.dofs j = c then m i j else 0

/-- MFEM's `BilinearForm::Assemble` over a list of faces, each with its integrator. (src/mfemExtension/BilinearForm_IBFI.cpp:27-84) -/
def assemble (l : List (Face ι K × EMat K)) : Matrix ι ι K :=
  l.foldl (fun A p => addSub p.1 p.2 A) 0

/-- What the assembly reads.  Markers are resolved: every interior face carries the interior-boundary
condition of its attribute, if any, and every exterior boundary face the condition of its attribute, if
any.  `Minv f` is the matrix of `InverseIntegrator(MassIntegrator(eps or mu))`, `Msig` the conductivity
mass matrix, `D d` the matrix of MFEM's `DerivativeIntegrator` in direction `d`. (src/components/DGOperatorFactory.h:373-389, 411-675) -/
structure Prob (ι K : Type) where
  dim : Nat
  alpha : K
  interior : List (Option BdrCond × Face ι K)
  bdr : List (Option BdrCond × Face ι K)
  Minv : FieldT → Matrix ι ι K
  Msig : Matrix ι ι K
  D : Dir → Matrix ι ι K

/-- Lines 373-389 `buildInteriorIgnoreMarker` as applied to the interior faces: a face whose attribute
has an interior-boundary condition is skipped. (src/components/DGOperatorFactory.h) -/
def plainFaces (P : Prob ι K) : List (Face ι K) :=
  P.interior.filterMap fun p => if p.1 = none then some p.2 else none

/-- Exterior boundary faces with a condition. (src/components/DGOperatorFactory.h:478-499, 515-535, 552-571) -/
def bdrFaces (P : Prob ι K) : List (BdrCond × Face ι K) :=
  P.bdr.filterMap fun p => p.1.map fun c => (c, p.2)

/-- Interior faces with an interior-boundary condition other than SGBC (the guards of lines 582, 616,
650). (src/components/DGOperatorFactory.h) -/
def intBdrFaces (P : Prob ι K) : List (BdrCond × Face ι K) :=
  P.interior.filterMap fun p => match p.1 with
    | none => none
    | some .SGBC => none
    | some c => some (c, p.2)

/-- Lines 426-465 `buildDerivativeSubOperator`. (src/components/DGOperatorFactory.h) -/
def derivativeSub (P : Prob ι K) (d : Dir) : Matrix ι ι K :=
  if d.val ≥ P.dim then 0 else P.D d

/-- Coefficient of the zero- and two-normal terms on a boundary (lines 484-495, 558-569, 590, 658). (src/components/DGOperatorFactory.h) -/
def penaltyCoeff (P : Prob ι K) (c : BdrCond) (f : FieldT) : K :=
  if c ≠ .SMA then bdrCoeff c f * P.alpha else 1

/-- Coefficient of the one-normal term on a boundary (lines 521-532, 624). (src/components/DGOperatorFactory.h) -/
def fluxCoeff (c : BdrCond) (f : FieldT) : K :=
  if c ≠ .SMA then bdrCoeff c f else 1

/-- Lines 467-501 `buildZeroNormalSubOperator`. (src/components/DGOperatorFactory.h) -/
def zeroNormalSub (P : Prob ι K) (f : FieldT) : Matrix ι ι K :=
  assemble ((plainFaces P).map (fun F => (F, zeroNormal P.alpha F)) ++
    (bdrFaces P).map fun q => (q.2, zeroNormal (penaltyCoeff P q.1 f) q.2))

/-- Lines 503-537 `buildOneNormalSubOperator`. (src/components/DGOperatorFactory.h) -/
def oneNormalSub (P : Prob ι K) (f : FieldT) (d : Dir) : Matrix ι ι K :=
  assemble ((plainFaces P).map (fun F => (F, oneNormal d 1 F)) ++
    (bdrFaces P).map fun q => (q.2, oneNormal d (fluxCoeff q.1 f) q.2))

/-- Lines 539-573 `buildTwoNormalSubOperator`. (src/components/DGOperatorFactory.h) -/
def twoNormalSub (P : Prob ι K) (f : FieldT) (d d2 : Dir) : Matrix ι ι K :=
  assemble ((plainFaces P).map (fun F => (F, twoNormal d d2 P.alpha F)) ++
    (bdrFaces P).map fun q => (q.2, twoNormal d d2 (penaltyCoeff P q.1 f) q.2))

/-- Lines 575-607 `buildZeroNormalIBFISubOperator`. (src/components/DGOperatorFactory.h) -/
def zeroNormalIBFI (P : Prob ι K) (f : FieldT) : Matrix ι ι K :=
  assemble ((intBdrFaces P).map fun q => (q.2, interiorJump [] (penaltyCoeff P q.1 f) q.2))

/-- Lines 609-641 `buildOneNormalIBFISubOperator`. (src/components/DGOperatorFactory.h) -/
def oneNormalIBFI (P : Prob ι K) (f : FieldT) (d : Dir) : Matrix ι ι K :=
  assemble ((intBdrFaces P).map fun q => (q.2, interiorJump [d] (fluxCoeff q.1 f) q.2))

/-- Lines 643-675 `buildTwoNormalIBFISubOperator`. (src/components/DGOperatorFactory.h) -/
def twoNormalIBFI (P : Prob ι K) (f : FieldT) (d d2 : Dir) : Matrix ι ι K :=
  assemble ((intBdrFaces P).map fun q => (q.2, interiorJump [d, d2] (penaltyCoeff P q.1 f) q.2))

/-- A block of the global operator before placement: the field and component of its rows and columns, its
sign and its matrix.  On a rank with face-neighbour degrees of freedom the matrix has more columns than rows.
(src/components/DGOperatorFactory.h:153-174) -/
structure RBlock (ρ κ K : Type) where
  rowF : FieldT
  rowD : Dir
  colF : FieldT
  colD : Dir
  sign : K
  mat : Matrix ρ κ K

/-- A block on a single rank. (src/components/DGOperatorFactory.h:153-174) -/
abbrev GBlock (ι K : Type) := RBlock ι ι K

/-- The two fields. (src/components/Types.h:37) -/
def fields : List FieldT := [.E, .H]
/-- The three directions. (src/components/Types.h:66-69) -/
def dirs : List Dir := [0, 1, 2]

/-- The directions kept by `if (x >= dim) continue`. (src/components/DGOperatorFactory.h:1212-1347) -/
def dirsUpTo (dim : Nat) : List Dir := dirs.filter fun x => ¬ x.val ≥ dim

/-- `1.0 - double(f) * 2.0`. (src/components/DGOperatorFactory.h:1229-1289) -/
def sgn (f : FieldT) : K := 1 - (f.idx : K) * 2

/-- Pattern of lines 1212-1225 and 1290-1303: `(f, d) ← (f, d)` with sign -1. (src/components/DGOperatorFactory.h) -/
def zeroBlocks {ρ κ : Type} (op : FieldT → Matrix ρ κ K) : List (RBlock ρ κ K) :=
  fields.flatMap fun f => dirs.map fun d => ⟨f, d, f, d, -1, op f⟩

/-- Pattern of lines 1229-1246 and 1307-1327: row `(f, y)` from column `(alt, z)` and row `(f, z)` from
column `(alt, y)`. (src/components/DGOperatorFactory.h) -/
def oneBlocks {ρ κ : Type} (dim : Nat) (op : FieldT → Dir → Matrix ρ κ K) : List (RBlock ρ κ K) :=
  fields.flatMap fun f => (dirsUpTo dim).flatMap fun x =>
    let y := x + 1
    let z := x + 2
    [⟨f, y, altField f, z, sgn f, op f x⟩, ⟨f, z, altField f, y, -1 + (f.idx : K) * 2, op f x⟩]

/-- Pattern of lines 1250-1265 and 1331-1347: row `(f, d)` from column `(f, d2)`. (src/components/DGOperatorFactory.h) -/
def twoBlocks {ρ κ : Type} (dim : Nat) (op : FieldT → Dir → Dir → Matrix ρ κ K) : List (RBlock ρ κ K) :=
  fields.flatMap fun f => (dirsUpTo dim).flatMap fun d => (dirsUpTo dim).map fun d2 =>
    ⟨f, d, f, d2, 1, op f d d2⟩

/-- Lines 1269-1289 `collectGlobalDirectionalOperators`. (src/components/DGOperatorFactory.h) -/
def directionalBlocks (P : Prob ι K) : List (GBlock ι K) :=
  fields.flatMap fun f => (dirsUpTo P.dim).flatMap fun x =>
    let y := x + 1
    let z := x + 2
    [⟨f, z, altField f, y, sgn f, P.Minv f * derivativeSub P x⟩,
     ⟨f, y, altField f, z, -1 + (f.idx : K) * 2, P.Minv f * derivativeSub P x⟩]

/-- Lines 1351-1361 `collectGlobalConductiveOperator`. (src/components/DGOperatorFactory.h) -/
def conductiveBlocks (P : Prob ι K) : List (GBlock ι K) :=
  dirs.map fun d => ⟨.E, d, .E, d, -1, P.Minv .E * P.Msig⟩

/-- `getInteriorBoundaryToMarker().size() != 0` (the map has an entry only if some attribute has an
interior condition). (src/components/DGOperatorFactory.h:1466-1500, src/components/Model.cpp:102-119) -/
def hasIntBdr (P : Prob ι K) : Bool := P.interior.any fun p => p.1.isSome

/-- Lines 1427-1560: the blocks collected by `buildGlobalOperator`, in order.  The final
`Threshold(1e-20)`, which drops entries of that magnitude, is not modelled. (src/components/DGOperatorFactory.h) -/
def globalBlocks (P : Prob ι K) : List (GBlock ι K) :=
  (if hasIntBdr P then
    oneBlocks P.dim (fun f x => P.Minv f * oneNormalIBFI P (altField f) x) ++
    zeroBlocks (fun f => P.Minv f * zeroNormalIBFI P f) ++
    twoBlocks P.dim (fun f d d2 => P.Minv f * twoNormalIBFI P f d d2)
  else []) ++
  directionalBlocks P ++
  oneBlocks P.dim (fun f x => P.Minv f * oneNormalSub P (altField f) x) ++
  zeroBlocks (fun f => P.Minv f * zeroNormalSub P f) ++
  twoBlocks P.dim (fun f d d2 => P.Minv f * twoNormalSub P f d d2) ++
  conductiveBlocks P

/-- A field state: the six components. (src/evolution/Fields.h:10-66) -/
abbrev State (ι K : Type) := FieldT → Dir → ι → K

/-- Action of a list of placed blocks. (src/components/DGOperatorFactory.h:178-236) -/
def applyBlocks {ρ κ : Type} [Fintype κ] (bs : List (RBlock ρ κ K)) (u : State κ K) : State ρ K := fun f d =>
  ((bs.filter fun b => b.rowF = f ∧ b.rowD = d).map fun b => b.sign • b.mat.mulVec (u b.colF b.colD)).sum

/-- The global operator acting on the fields (source-free part of src/evolution/GlobalEvolution.cpp
`Mult`: one sparse matrix-vector product). (line 811) -/
def globalMult (P : Prob ι K) (u : State ι K) : State ι K := applyBlocks (globalBlocks P) u

/-- src/components/DGOperatorFactory.h:61-81 `FieldOffsets` with no neighbour dofs, and 162-174
`collectBlockPlacement`; `rows` is the sparse storage of the block. -/
def place (n : Nat) (b : GBlock (Fin n) K) (rows : List (List (Int × K))) : Csr.Placement K :=
  { rows := rows
    rowOffset := ((3 * b.rowF.idx + b.rowD.val) * n : Nat)
    colOffset := ((3 * b.colF.idx + b.colD.val) * n : Nat)
    sign := b.sign }

end Dgtd.Op
