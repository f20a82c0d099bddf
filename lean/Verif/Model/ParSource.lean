/-
Model of the injection of plane waves on several MPI ranks (src/evolution/GlobalEvolution.cpp:551-626, 819-826;
src/solver/SourcesManager.cpp:106-232).

Built on `Model/Par.lean` and `Model/OpSource.lean` (same idealisations).  Each rank builds the operator of its own
total-field faces, evaluates the waves on the elements of its own part of the source sub-mesh, and decides by itself
whether the values are negligible.
-/
import Verif.Model.Par

namespace Dgtd.Par

open Dgtd.Op

variable {K : Type} [Field K] [LinearOrder K]

/-- What a rank reads: its own elements as a `Case`, and its faces towards other ranks.
(src/evolution/GlobalEvolution.cpp:318-350, 551-626) -/
structure RankCase (n g : Nat) (K : Type) where
  own : Case (Fin n) K
  intBdr : Bool
  shared : List (Face (Fin (n + g)) K)

variable {n g : Nat}

/-- The problem of the rank's operator without sources. (src/components/DGOperatorFactory.h:1427-1560) -/
def RankCase.prob (Q : RankCase n g K) : RankProb n g K :=
  { dim := Q.own.dim
    alpha := Q.own.alpha
    intBdr := Q.intBdr
    interior := Q.own.prob.interior
    shared := Q.shared
    bdr := Q.own.bdr
    Minv := Q.own.Minv
    Msig := Q.own.Msig
    D := Q.own.D }

/-- src/components/DGOperatorFactory.h:1405-1428 `buildSourceFaceOperator` on a rank: the matrix has the columns of the
neighbours (line 1407), which stay empty because the faces lie between own elements. -/
def sourceParBlocks (Q : RankCase n g K) : List (RBlock (Fin n) (Fin (n + g)) K) :=
  oneBlocks Q.own.dim (fun f x => widen (Q.own.Minv f * sourceOne Q.own.tfFaces x)) ++
  zeroBlocks (fun f => widen (Q.own.Minv f * sourceZero Q.own.alpha Q.own.tfFaces)) ++
  twoBlocks Q.own.dim (fun f d d2 => widen (Q.own.Minv f * sourceTwo Q.own.alpha Q.own.tfFaces d d2))

section machine
variable {R : Type} {N G : R → Nat}

/-- src/evolution/GlobalEvolution.cpp:757-826 on all ranks: exchange, product, and the rank's own waves unless their norm
on this rank is below the threshold; the work vector is zero at the neighbours' numbers (lines 816, 600-611). -/
def sourceRhsPar (Q : (r : R) → RankCase (N r) (G r) K) (src : (r : R) → Fin (G r) → (q : R) × Fin (N q))
    (waves : (r : R) → List (State (Fin (N r)) K)) (u : PState N K) : PState N K := fun r =>
  let v := sourceField (Q r).own (waves r)
  if sourceNorm2 (Q r).own v < skip2 then globalPar (fun r => (Q r).prob) src u r
  else fun f d k => globalPar (fun r => (Q r).prob) src u r f d k -
    applyBlocks (sourceParBlocks (Q r)) (withGhosts v fun _ _ _ => 0) f d k

end machine

end Dgtd.Par
