/-
Vocabulary for the cross sections of a run with a surface probe, however the surface is divided among ranks.
-/
import Verif.Spec.SurfaceDirs
import Verif.Spec.Rcs

namespace Dgtd.SurfaceRun.Spec
open Dgtd.SurfaceDirs Dgtd.SurfaceDirs.Spec
open Dgtd.ProbeFiles (Path FS Op exec execAll)

noncomputable section

/-- The piece of the surface that a rank has: the elements around it with their faces on the surface, and for each unknown of these elements the
number it has among the unknowns of the rank. -/
structure Piece where
  nDofs : Nat
  faces : List Rcs.Face
  at' : Nat → Nat

/-- Six components at the unknowns. -/
abbrev Fields := Fin 6 → Nat → ℝ

/-- The fields of a problem at an instant shown to the probes: the cycle, the time, the values at all unknowns of the problem. -/
structure Moment where
  cycle : Nat
  time  : ℝ
  u     : Fields

/-- What the post-processor works with, made from the files of a rank: fields on the surface are those of the rank at the unknowns of the piece. -/
def toRank (d : Data ℝ Piece Fields) : Rcs.Rank where
  nDofs := d.mesh.nDofs
  faces := d.mesh.faces
  snaps := d.snaps.map fun s => ⟨s.1, fun c v => s.2.2 c (s.2.1.at' v)⟩

/-- A run of a problem: unknown `v` of rank `r` is unknown `glob r v` of the problem, and ranks have their part of the fields (C125). -/
structure Parallel where
  cuda   : Bool
  n      : Nat
  case   : String
  probes : List (Probe Piece)
  glob   : Nat → Nat → Nat

/-- The run, given the history of the fields of the whole problem. -/
def Parallel.run (A : Parallel) (final : ℝ) (hist : List Moment) : Run ℝ Piece Fields where
  cuda := A.cuda
  n := A.n
  case := A.case
  final := final
  probes := A.probes
  instants := hist.map fun m => ⟨m.cycle, m.time, fun r c v => m.u c (A.glob r v)⟩

/-- A face with the unknowns of the problem; entries beyond those of the element do not count. -/
def globalFace (num : Nat → Nat) (f : Rcs.Face) : Rcs.Face := { f with dofs := fun i => if i < f.ndof then num (f.dofs i) else 0 }

/-- The surface of a probe: the faces of all ranks, with the unknowns of the problem. -/
def surface (A : Parallel) (p : Probe Piece) : List Rcs.Face :=
  (List.range A.n).flatMap fun r => match p.part r with
    | none => []
    | some g => g.faces.map (globalFace fun v => A.glob r (g.at' v))

/-- The unknowns of the faces of a piece are among its unknowns. -/
def Sound (A : Parallel) (p : Probe Piece) : Prop :=
  ∀ r < A.n, ∀ g, p.part r = some g → ∀ f ∈ g.faces, ∀ i < f.ndof, f.dofs i < g.nDofs

/-- The cross sections that a user gets: post-processing in `base` of the files `fs`, which the file system lists as `l`. -/
def crossSections {T : Type} (is3D : Bool) (maxTime : Option ℝ) (freqsHz : List ℝ) (angles : List Rcs.Angles) (pw : Rcs.PlaneWave)
    (fs : FS (Chunk ℝ Piece Fields T)) (base : Path) (l : List String) : Option (List (Rcs.Angles × List Rcs.Row)) :=
  (inputs fs base l).bind fun ds => Rcs.run is3D maxTime freqsHz angles pw (ds.map toRank)

/-- The origin of coordinates is not on a surface (in two dimensions the third coordinate does not count). -/
def Away (is3D : Bool) (faces : List Rcs.Face) : Prop :=
  ∀ f ∈ faces, ∀ q ∈ f.pts, (if is3D then q.pos else ![q.pos 0, q.pos 1, 0]) ≠ 0

end

end Dgtd.SurfaceRun.Spec
