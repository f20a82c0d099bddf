/-
Model of the folders in which the ranks of a run leave the fields on a surface, and of how the post-processor finds them:
src/components/RCSSurfaceExporter.cpp, src/components/RCSSurfacePostProcessor.cpp, src/solver/ProbesManager.cpp.

Paths start below `Exports/`; a directory is there when a file in it is.  A file is a list of pieces: the mesh, the header with the geometry, a
snapshot; their bytes are the subject of `Model/SurfaceFile.lean`.  A stream appends at the end of its file, which is so as long as no two
probes have the same name.
-/
import Verif.Model.Stats
import Mathlib.Data.String.Basic

namespace Dgtd.SurfaceDirs
open Dgtd.ProbeFiles (Name Path FS Op exec execAll)
open Dgtd.TimeLoop (gate)
open Dgtd.Stats (tag)

/-- A surface probe.  `part r` is the piece of its surface in the mesh of rank `r`, if there is one.
(src/components/Probes.h:22-27, src/components/SubMesher.cpp:776-798) -/
structure Probe (G : Type) where
  name  : String
  steps : Int
  part  : Nat → Option G

/-- A piece of a file. (src/components/RCSSurfaceExporter.cpp:39, 60-70, 139-152; src/components/RCSSurfacePostProcessor.cpp:461-482) -/
inductive Chunk (K G F T : Type) where
  | mesh (g : G)
  | geometry (g : G)
  /-- a time and the fields of the rank, on the piece of the surface -/
  | snapshot (time : K) (g : G) (f : F)
  | table (t : T)
deriving DecidableEq

/-- An instant shown to the probes: the cycle, the time and the fields of every rank. (src/components/RCSSurfaceExporter.cpp:154-164) -/
structure Instant (K F : Type) where
  cycle  : Nat
  time   : K
  fields : Nat → F

/-- `Exports/<mode>/<case>/RCSSurface/<probe>`. (src/components/RCSSurfaceExporter.cpp:32) -/
def baseOf (cuda : Bool) (n : Nat) (case name : String) : Path := [.dir (tag cuda n), .dir case, .dir "RCSSurface", .dir name]

/-- The folder the post-processing reads, from the mode and the case of the request and the probe of the case.
(src/driver/rcs_driver.cpp:38-39, 73-76) -/
def requested (runmode casename name : String) : Path := [.dir runmode, .dir casename, .dir "RCSSurface", .dir name]

/-- `rank<r>`. (src/components/RCSSurfaceExporter.cpp:34) -/
def rankName (r : Nat) : String := "rank" ++ toString r

/-- The mesh that a rank writes. (src/components/RCSSurfaceExporter.cpp:39) -/
def meshFile (base : Path) (s : String) : Path := base ++ [.dir s, .dir "mesh"]

/-- The data that a rank writes. (src/components/RCSSurfaceExporter.cpp:41) -/
def dataFile (base : Path) (s : String) : Path := base ++ [.dir s, .dir "surface_data.bin"]

variable {K G F T : Type}

/-- The constructor of the exporter on a rank.  It throws (`none`), before it opens anything, when the mesh of the rank has no face of the
surface. (src/components/RCSSurfaceExporter.cpp:10-72, src/components/SubMesher.cpp:792-797) -/
def openOps (base : Path) (r : Nat) (p : Probe G) : Option (List (Op (Chunk K G F T))) :=
  (p.part r).map fun g =>
    [.write (meshFile base (rankName r)) [.mesh g], .write (dataFile base (rankName r)) [.geometry g]]

variable [Field K] [LinearOrder K]

/-- `RCSSurfaceExporter::write`. (src/components/RCSSurfaceExporter.cpp:154-164, src/solver/ProbesManager.cpp:557-563) -/
def updateOps (base : Path) (final : K) (r : Nat) (i : Instant K F) (p : Probe G) : Option (List (Op (Chunk K G F T))) :=
  match p.part r with
  | none => some []
  | some g => (gate final i.cycle p.steps i.time).map fun b =>
    if b then [.append (dataFile base (rankName r)) (.snapshot i.time g (i.fields r))] else []

/-- A run: the device, the number of ranks, the case, the final time, the surface probes and the instants shown to them.
(src/solver/ProbesManager.cpp:498-530, 565-576) -/
structure Run (K G F : Type) where
  cuda     : Bool
  n        : Nat
  case     : String
  final    : K
  probes   : List (Probe G)
  instants : List (Instant K F)

/-- The directory of a probe of a run. (src/components/RCSSurfaceExporter.cpp:32) -/
def Run.base (R : Run K G F) (p : Probe G) : Path := baseOf R.cuda R.n R.case p.name

/-- All that a rank does for the surface probes; `none` when it throws. (src/solver/ProbesManager.cpp:498-530, 565-576) -/
def prog (R : Run K G F) (r : Nat) : Option (List (Op (Chunk K G F T))) := do
  let a ← R.probes.mapM fun p => openOps (R.base p) r p
  let b ← R.instants.mapM fun i => R.probes.mapM fun p => updateOps (R.base p) R.final r i p
  some (a.flatten ++ b.flatten.flatten)

/-! ### The post-processor -/

/-- `std::regex_match` with `rank\d+`. (src/components/RCSSurfacePostProcessor.cpp:29, 31-32) -/
def isRank (s : String) : Bool :=
  match s.toList with
  | 'r' :: 'a' :: 'n' :: 'k' :: d :: ds => (d :: ds).all Char.isDigit
  | _ => false

/-- The directory in `base` in which a file is, if it is in one. (src/components/RCSSurfacePostProcessor.cpp:30-31) -/
def childDir (base p : Path) : Option String :=
  if base.isPrefixOf p then
    match p.drop base.length with
    | .dir s :: _ :: _ => some s
    | _ => none
  else none

/-- `findRankDirs`, given the directories that the iterator goes through, in its order; the paths have the same beginning, so that they are
sorted as the names are. (src/components/RCSSurfacePostProcessor.cpp:26-38) -/
def findRankDirs (listing : List String) : List String := (listing.filter isRank).mergeSort fun a b => decide (a ≤ b)

/-- What the post-processor has of a rank. (src/components/RCSSurfacePostProcessor.h:61-64, src/components/RCSSurfacePostProcessor.cpp:226, 309) -/
structure Data (K G F : Type) where
  mesh     : G
  geometry : G
  snaps    : List (K × G × F)
deriving DecidableEq

/-- A snapshot. (src/components/RCSSurfacePostProcessor.cpp:105-116) -/
def toSnap : Chunk K G F T → Option (K × G × F)
  | .snapshot t g f => some (t, g, f)
  | _ => none

/-- `readRankData` and the loading of the mesh, with the names the post-processor looks for. (src/components/RCSSurfacePostProcessor.cpp:75-118, 226, 309) -/
def readRank (fs : FS (Chunk K G F T)) (base : Path) (s : String) : Option (Data K G F) :=
  match Assoc.find fs (base ++ [.dir s, .dir "surface_data.bin"]), Assoc.find fs (base ++ [.dir s, .dir "mesh"]) with
  | some (.geometry g :: l), some [.mesh m] => (l.mapM toSnap).map fun l => ⟨m, g, l⟩
  | _, _ => none

/-- What the post-processor works on, in its order; `none` when it throws. (src/components/RCSSurfacePostProcessor.cpp:185-187, 222-226) -/
def inputs (fs : FS (Chunk K G F T)) (base : Path) (listing : List String) : Option (List (Data K G F)) :=
  match findRankDirs listing with
  | [] => none
  | l => l.mapM (readRank fs base)

/-- The end of the post-processor: it clears its two directories and writes a file of each kind for every direction, given as the ending of the
name of the file and the two tables. (src/components/RCSSurfacePostProcessor.cpp:449-483) -/
def resultOps (base : Path) (ts : List (String × T × T)) : List (Op (Chunk K G F T)) :=
  [.removeAll (base ++ [.dir "farfield"]), .removeAll (base ++ [.dir "rcs"])] ++
  ts.flatMap fun t => [.write (base ++ [.dir "farfield", .dir ("farfieldData_" ++ t.1)]) [.table t.2.1],
    .write (base ++ [.dir "rcs", .dir ("rcsData_" ++ t.1)]) [.table t.2.2]]

end Dgtd.SurfaceDirs
