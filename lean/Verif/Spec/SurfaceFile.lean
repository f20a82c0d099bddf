/-
Vocabulary for C46 and C47.
-/
import Verif.Model.SurfaceFile

namespace Dgtd.SurfaceFile.Spec

/-- The integration points of the surface: those of the marked faces, in order. -/
def surfacePts (bs : List Bdr) : List QPt := (bs.filter fun b => b.marked && b.hasTr).flatMap Bdr.pts

/-- A snapshot with six components of `ndofs` values. -/
def Shaped (ndofs : Nat) (s : Snap) : Prop := s.comps.length = 6 ∧ ∀ c ∈ s.comps, c.length = ndofs

/-- The contents of the file after the header as the user thinks of them. -/
def contents (sdim ndofs : Nat) (basis : Int) (bs : List Bdr) (snaps : List Snap) : Data where
  sdim := sdim
  ndofs := ndofs
  nbdr := bs.length
  nqp := (surfacePts bs).length
  basis := basis
  positions := (surfacePts bs).flatMap fun q => (List.range sdim).map q.pos
  normals := (surfacePts bs).flatMap fun q => [q.nor 0, q.nor 1, q.nor 2]
  weights := (surfacePts bs).map QPt.w
  snaps := snaps

/-- Numbers that fit the `int32_t` header and the `int` products of the reader. -/
structure Fits (sdim ndofs : Nat) (basis : Int) (bs : List Bdr) : Prop where
  hsdim : sdim < 2 ^ 31
  hndofs : ndofs < 2 ^ 31
  hnbdr : bs.length < 2 ^ 31
  hbasis : -2 ^ 31 ≤ basis ∧ basis < 2 ^ 31
  coords : (surfacePts bs).length * sdim < 2 ^ 31
  normals : (surfacePts bs).length * 3 < 2 ^ 31

/-- Bytes of header and geometry. -/
def geoSize (sdim : Nat) (bs : List Bdr) : Nat := 20 + 8 * ((surfacePts bs).length * (sdim + 3 + 1))

/-- Bytes of one snapshot. -/
def snapSize (ndofs : Nat) : Nat := 8 + 48 * ndofs

/-- Blocks of `n` doubles. -/
def blocks (n : Nat) : Nat → List Byte → List (List Dbl)
  | 0, _ => []
  | k + 1, bs => bytesDbls n (bs.take (8 * n)) :: blocks n k (bs.drop (8 * n))

/-- The snapshot of which only the first `k` bytes were written, with zero bytes in place of the others. -/
def cut (ndofs : Nat) (s : Snap) (k : Nat) : Snap where
  time := s.time
  comps := blocks ndofs 6 ((s.comps.flatMap dblsBytes).take (k - 8) ++ List.replicate (48 * ndofs - (k - 8)) 0)

/-- What is found in the first `k` bytes of the snapshots: complete ones in full; of the one being written, the
zero-filled copy if its time is complete. -/
def survivors (ndofs : Nat) : List Snap → Nat → List Snap
  | [], _ => []
  | s :: r, k =>
    if snapSize ndofs ≤ k then s :: survivors ndofs r (k - snapSize ndofs)
    else if 8 ≤ k then [cut ndofs s k] else []

end Dgtd.SurfaceFile.Spec
