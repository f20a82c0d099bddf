/-
Model of the evolution operators on several MPI ranks: the operator a rank assembles, with the columns of its
face-neighbour degrees of freedom (src/components/DGOperatorFactory.h), the exchange of these values and the products
(src/evolution/GlobalEvolution.cpp, src/evolution/MaxwellEvolution.cpp).

Built on `Model/Op.lean` (same idealisations).  The library's part is written as MFEM documents it: a rank holds `n`
degrees of freedom of its own elements and `g` of the elements across its shared faces (`num_face_nbr_dofs`), numbered
after its own; `ParBilinearForm::Assemble` adds the faces between own elements to the matrix first and then every
shared face, seen from the own element, with the rows of the own element only (`AssembleSharedFaces`).

Not modelled: shared faces whose attribute has an interior-boundary condition.  What becomes of them is decided inside
the library (a fork of MFEM which is not part of the repository).
-/
import Verif.Model.OpMaxwell
import Verif.Model.OpSource

namespace Dgtd.Par

open Dgtd.Op

variable {K : Type} [Field K] [LinearOrder K]

/-- What the assembly reads on one rank.  `interior` and `bdr` are its faces between own elements and on the exterior,
as in `Prob`; `shared` its faces towards other ranks, the own element first.  `intBdr` is
`getInteriorBoundaryToMarker().size() != 0`, which is decided by the case and so the same on all ranks.
(src/components/DGOperatorFactory.h:373-675) -/
structure RankProb (n g : Nat) (K : Type) where
  dim : Nat
  alpha : K
  intBdr : Bool
  interior : List (Option BdrCond × Face (Fin n) K)
  shared : List (Face (Fin (n + g)) K)
  bdr : List (Option BdrCond × Face (Fin n) K)
  Minv : FieldT → Matrix (Fin n) (Fin n) K
  Msig : Matrix (Fin n) (Fin n) K
  D : Dir → Matrix (Fin n) (Fin n) K

variable {n g : Nat}

/-- The part of a rank's problem that involves its own degrees of freedom only. (src/components/DGOperatorFactory.h:373-675) -/
def RankProb.local (Q : RankProb n g K) : Prob (Fin n) K :=
  { dim := Q.dim
    alpha := Q.alpha
    interior := Q.interior
    bdr := Q.bdr
    Minv := Q.Minv
    Msig := Q.Msig
    D := Q.D }

/-- A form on the own degrees of freedom as a matrix with the neighbours' columns (which stay empty).
(src/components/DGOperatorFactory.h:391-397, 411-675) -/
def widen (A : Matrix (Fin n) (Fin n) K) : Matrix (Fin n) (Fin (n + g)) K :=
  fun r c => Fin.addCases (fun c => A r c) (fun _ => 0) c

/-- MFEM's `AddSubMatrix(vdofs1, vdofs_all, elmat)` in `AssembleSharedFaces` (closed form). (src/components/DGOperatorFactory.h:467-573) -/
def addRows (F : Face (Fin (n + g)) K) (m : EMat K) (A : Matrix (Fin n) (Fin (n + g)) K) :
    Matrix (Fin n) (Fin (n + g)) K :=
  fun r c => A r c + ∑ i ∈ Finset.range F.ndof1, ∑ j ∈ Finset.range (F.ndof1 + F.ndof2),
    if F.dofs i = Fin.castAdd g r ∧ F.dofs j = c then m i j else 0

/-- MFEM's `ParBilinearForm::Assemble` of a form with interior-face integrators: the own part, then the shared faces.
(src/components/DGOperatorFactory.h:467-573) -/
def assembleShared (A : Matrix (Fin n) (Fin n) K) (l : List (Face (Fin (n + g)) K × EMat K)) :
    Matrix (Fin n) (Fin (n + g)) K :=
  l.foldl (fun A p => addRows p.1 p.2 A) (widen A)

/-- DGOperatorFactory.h:467-501 `buildZeroNormalSubOperator<ParBilinearForm>`. -/
def zeroNormalPar (Q : RankProb n g K) (f : FieldT) : Matrix (Fin n) (Fin (n + g)) K :=
  assembleShared (zeroNormalSub Q.local f) (Q.shared.map fun F => (F, zeroNormal Q.alpha F))

/-- DGOperatorFactory.h:503-537 `buildOneNormalSubOperator<ParBilinearForm>`. -/
def oneNormalPar (Q : RankProb n g K) (f : FieldT) (d : Dir) : Matrix (Fin n) (Fin (n + g)) K :=
  assembleShared (oneNormalSub Q.local f d) (Q.shared.map fun F => (F, oneNormal d 1 F))

/-- DGOperatorFactory.h:539-573 `buildTwoNormalSubOperator<ParBilinearForm>`. -/
def twoNormalPar (Q : RankProb n g K) (f : FieldT) (d d2 : Dir) : Matrix (Fin n) (Fin (n + g)) K :=
  assembleShared (twoNormalSub Q.local f d d2) (Q.shared.map fun F => (F, twoNormal d d2 Q.alpha F))

/-- DGOperatorFactory.h:1269-1289 `collectGlobalDirectionalOperators`. -/
def directionalPar (Q : RankProb n g K) : List (RBlock (Fin n) (Fin (n + g)) K) :=
  fields.flatMap fun f => (dirsUpTo Q.dim).flatMap fun x =>
    let y := x + 1
    let z := x + 2
    [⟨f, z, altField f, y, sgn f, widen (Q.Minv f * derivativeSub Q.local x)⟩,
     ⟨f, y, altField f, z, -1 + (f.idx : K) * 2, widen (Q.Minv f * derivativeSub Q.local x)⟩]

/-- DGOperatorFactory.h:1351-1361 `collectGlobalConductiveOperator`. -/
def conductivePar (Q : RankProb n g K) : List (RBlock (Fin n) (Fin (n + g)) K) :=
  dirs.map fun d => ⟨.E, d, .E, d, -1, widen (Q.Minv .E * Q.Msig)⟩

/-- DGOperatorFactory.h:1427-1560 `buildGlobalOperator`: the blocks a rank collects, in order. -/
def rankBlocks (Q : RankProb n g K) : List (RBlock (Fin n) (Fin (n + g)) K) :=
  (if Q.intBdr then
    oneBlocks Q.dim (fun f x => widen (Q.Minv f * oneNormalIBFI Q.local (altField f) x)) ++
    zeroBlocks (fun f => widen (Q.Minv f * zeroNormalIBFI Q.local f)) ++
    twoBlocks Q.dim (fun f d d2 => widen (Q.Minv f * twoNormalIBFI Q.local f d d2))
  else []) ++
  directionalPar Q ++
  oneBlocks Q.dim (fun f x => Q.Minv f * oneNormalPar Q (altField f) x) ++
  zeroBlocks (fun f => Q.Minv f * zeroNormalPar Q f) ++
  twoBlocks Q.dim (fun f d d2 => Q.Minv f * twoNormalPar Q f d d2) ++
  conductivePar Q

/-- DGOperatorFactory.h:61-81 `FieldOffsets` and 162-174 `collectBlockPlacement` on a rank; `rows` is the sparse storage
of the block. -/
def placePar (n g : Nat) (b : RBlock (Fin n) (Fin (n + g)) K) (rows : List (List (Int × K))) : Csr.Placement K :=
  { rows := rows
    rowOffset := ((3 * b.rowF.idx + b.rowD.val) * n : Nat)
    colOffset := ((3 * b.colF.idx + b.colD.val) * (n + g) : Nat)
    sign := b.sign }

/-- MFEM's `Vector::SetVector(v, offset)` with a vector of `len` entries. (src/evolution/GlobalEvolution.cpp:789-800) -/
def setVector (w : Int → K) (v : Nat → K) (len off : Nat) : Int → K := fun k =>
  if (off : Int) ≤ k ∧ k < ((off + len : Nat) : Int) then v (k - off).toNat else w k

/-- src/evolution/GlobalEvolution.cpp:760-801: the copies of the components (`std::memcpy`) and the work vector, which
held `w` before; `eNbr` and `hNbr` are what the exchange left in `FaceNbrData()`. -/
def workVector (n g : Nat) (x : Int → K) (eNbr hNbr : Dir → Nat → K) (w : Int → K) : Int → K :=
  let eOld := fun (d : Dir) (i : Nat) => x ((d.val * n + i : Nat) : Int)
  let hOld := fun (d : Dir) (i : Nat) => x (((3 + d.val) * n + i : Nat) : Int)
  let w := dirs.foldl (fun (w : Int → K) (d : Dir) =>
    setVector (setVector w (eOld d) n (d.val * (n + g))) (hOld d) n ((3 + d.val) * (n + g))) w
  if g ≠ 0 then
    dirs.foldl (fun (w : Int → K) (d : Dir) =>
      setVector (setVector w (eNbr d) g (d.val * (n + g) + n)) (hNbr d) g ((3 + d.val) * (n + g) + n)) w
  else w

/-- The fields of a rank followed by those of its neighbours. (src/evolution/MaxwellEvolution.cpp:204-214) -/
def withGhosts (u : State (Fin n) K) (v : State (Fin g) K) : State (Fin (n + g)) K := fun f d =>
  Fin.addCases (u f d) (v f d)

/-- src/evolution/MaxwellEvolution.cpp:28-37 `loadFluxVector`. -/
def fluxVector (loc : Fin n → K) (nbr : Fin g → K) : Fin (n + g) → K := Fin.addCases loc nbr

/-- `A->AddMult(x, y, a)` with a matrix that has more columns than rows. (src/evolution/MaxwellEvolution.cpp:230-270) -/
def addMultPar (A : Matrix (Fin n) (Fin (n + g)) K) (x : Fin (n + g) → K) (a : K) (y : Fin n → K) : Fin n → K :=
  y + a • A.mulVec x

/-- A matrix without neighbours' columns applied to a longer vector reads its first entries (the library checks the
sizes in debug builds only). (src/evolution/MaxwellEvolution.cpp:230-233) -/
def firstPart (x : Fin (n + g) → K) : Fin n → K := fun i => x (Fin.castAdd g i)

/-- src/evolution/MaxwellEvolution.cpp:224-273 on a rank, the increments of `hNew[x]` in program order; `u` are the own
fields, `w` the own fields followed by the neighbours' (`eFlux`, `hFlux`). -/
def hNewPar (Q : RankProb n g K) (u : State (Fin n) K) (w : State (Fin (n + g)) K) (x : Dir) : Fin n → K :=
  let y := x + 1
  let z := x + 2
  let r := addMult (MS Q.local .H y) (u .E z) (-1) 0
  let r := addMult (MS Q.local .H z) (u .E y) 1 r
  let r := addMultPar (Q.Minv .H * oneNormalPar Q .E y) (w .E z) 1 r
  let r := addMultPar (Q.Minv .H * oneNormalPar Q .E z) (w .E y) (-1) r
  let r := addMultPar (Q.Minv .H * twoNormalPar Q .H 0 x) (w .H 0) 1 r
  let r := addMultPar (Q.Minv .H * twoNormalPar Q .H 1 x) (w .H 1) 1 r
  let r := addMultPar (Q.Minv .H * twoNormalPar Q .H 2 x) (w .H 2) 1 r
  let r := addMultPar (Q.Minv .H * zeroNormalPar Q .H) (w .H x) (-1) r
  if Q.intBdr then
    let r := addMult (MFNB Q.local .H .E y) (firstPart (w .E z)) 1 r
    let r := addMult (MFNB Q.local .H .E z) (firstPart (w .E y)) (-1) r
    let r := addMult (MFNNB Q.local .H .H 0 x) (firstPart (w .H 0)) 1 r
    let r := addMult (MFNNB Q.local .H .H 1 x) (firstPart (w .H 1)) 1 r
    let r := addMult (MFNNB Q.local .H .H 2 x) (firstPart (w .H 2)) 1 r
    addMult (MPB Q.local .H) (firstPart (w .H x)) (-1) r
  else r

/-- The same for `eNew[x]`. (src/evolution/MaxwellEvolution.cpp:224-273) -/
def eNewPar (Q : RankProb n g K) (u : State (Fin n) K) (w : State (Fin (n + g)) K) (x : Dir) : Fin n → K :=
  let y := x + 1
  let z := x + 2
  let r := addMult (MS Q.local .E y) (u .H z) 1 0
  let r := addMult (MS Q.local .E z) (u .H y) (-1) r
  let r := addMultPar (Q.Minv .E * oneNormalPar Q .H y) (w .H z) (-1) r
  let r := addMultPar (Q.Minv .E * oneNormalPar Q .H z) (w .H y) 1 r
  let r := addMultPar (Q.Minv .E * twoNormalPar Q .E 1 x) (w .E 1) 1 r
  let r := addMultPar (Q.Minv .E * twoNormalPar Q .E 0 x) (w .E 0) 1 r
  let r := addMultPar (Q.Minv .E * twoNormalPar Q .E 2 x) (w .E 2) 1 r
  let r := addMultPar (Q.Minv .E * zeroNormalPar Q .E) (w .E x) (-1) r
  if Q.intBdr then
    let r := addMult (MFNB Q.local .E .H y) (firstPart (w .H z)) (-1) r
    let r := addMult (MFNB Q.local .E .H z) (firstPart (w .H y)) 1 r
    let r := addMult (MFNNB Q.local .E .E 0 x) (firstPart (w .E 0)) 1 r
    let r := addMult (MFNNB Q.local .E .E 1 x) (firstPart (w .E 1)) 1 r
    let r := addMult (MFNNB Q.local .E .E 2 x) (firstPart (w .E 2)) 1 r
    addMult (MPB Q.local .E) (firstPart (w .E x)) (-1) r
  else r

section machine
variable {R : Type} {N G : R → Nat}

/-- The fields of all the ranks. (src/evolution/GlobalEvolution.cpp:764-800) -/
abbrev PState (N : R → Nat) (K : Type) := (r : R) → State (Fin (N r)) K

/-- `ExchangeFaceNbrData()`: `src r j` is the rank that owns neighbour value `j` of rank `r`, and its number there.
(src/evolution/GlobalEvolution.cpp:771-774) -/
def exchange (src : (r : R) → Fin (G r) → (q : R) × Fin (N q)) (u : PState N K) (r : R) : State (Fin (G r)) K :=
  fun f d j => u (src r j).1 f d (src r j).2

/-- src/evolution/GlobalEvolution.cpp:757-814 on all ranks: exchange, then each rank applies its operator to its work
vector (here by blocks; `placePar`, `workVector` and `Csr.merge` give the flat vectors and the stored matrix). -/
def globalPar (Q : (r : R) → RankProb (N r) (G r) K) (src : (r : R) → Fin (G r) → (q : R) × Fin (N q))
    (u : PState N K) : PState N K := fun r =>
  applyBlocks (rankBlocks (Q r)) (withGhosts (u r) (exchange src u r))

/-- src/evolution/MaxwellEvolution.cpp:200-273 on all ranks, without sources. -/
def maxwellPar (Q : (r : R) → RankProb (N r) (G r) K) (src : (r : R) → Fin (G r) → (q : R) × Fin (N q))
    (u : PState N K) : PState N K := fun r f =>
  let w : State (Fin (N r + G r)) K := fun f d => fluxVector (u r f d) (exchange src u r f d)
  match f with
  | .E => eNewPar (Q r) (u r) w
  | .H => hNewPar (Q r) (u r) w

/-- src/evolution/GlobalEvolution.cpp:1112-1137 on all ranks, without sources: the right-hand side of an implicit
stage. -/
def implicitRhs (Q : (r : R) → RankProb (N r) (G r) K) (src : (r : R) → Fin (G r) → (q : R) × Fin (N q))
    (x : PState N K) : PState N K := globalPar Q src x

/-- src/evolution/GlobalEvolution.cpp:1178-1219: the operator handed to GMRES.  Each product exchanges. -/
def applyJ (Q : (r : R) → RankProb (N r) (G r) K) (src : (r : R) → Fin (G r) → (q : R) × Fin (N q)) (dt : K)
    (v : PState N K) : PState N K := fun r f d k => v r f d k - dt * globalPar Q src v r f d k

/-- src/evolution/GlobalEvolution.cpp:1221-1231: does `gmres.Mult(implicit_rhs_, k)` apply the operator again on rank `r`
after its first product?  `mfem::GMRESSolver` (external) starts from the contents of `k`, forms the residual and stops
if its norm is at most `max(rel_tol * norm, abs_tol)`, here `1e-8 * norm` and `0`, so if the residual is zero.  The
solver is built without a communicator, so the norm is that of the rank's own entries. -/
def anotherProduct (Q : (r : R) → RankProb (N r) (G r) K) (src : (r : R) → Fin (G r) → (q : R) × Fin (N q)) (dt : K)
    (x k : PState N K) (r : R) : Prop :=
  ∃ f d i, implicitRhs Q src x r f d i - applyJ Q src dt k r f d i ≠ 0

end machine

end Dgtd.Par
