/-
Model of the files that probes leave behind, for all the ranks of a run: src/solver/ProbesManager.cpp.

A file system is a dictionary from paths to contents; directories without files are not represented.  Numbers in file names
are kept as numbers: `std::to_string` and the zero padding of `to_padded_string` are one-to-one on them.  Paths start below
`Exports/<mode>/<case>/`.  Values are kept exactly; their printed form is the subject of `Model/Decimal.lean`.
-/
import Verif.Model.Assoc
import Verif.Model.TimeLoop

namespace Dgtd.ProbeFiles
open Dgtd.TimeLoop (gate)

/-- A component of a path. (src/solver/ProbesManager.cpp:184-261, 318-500) -/
inductive Name where
  | dir (s : String)
  | pointFile (id : Nat)
  | fieldFile (id : Nat)
  | rank (r : Nat)
  | snapshot (probe : String) (cycle : Nat)
  | cycle (n : Nat)
  | state (n : Int)
deriving DecidableEq

/-- A path: its components. (src/solver/ProbesManager.cpp:184-261, 318-500) -/
abbrev Path := List Name

/-- Files and their lines. (src/solver/ProbesManager.cpp:184-261, 318-500) -/
abbrev FS (α : Type) := List (Path × List α)

/-- What a rank does to the file system. (src/solver/ProbesManager.cpp:191-214, 228-252, 363-370, 399-408, 473-490) -/
inductive Op (α : Type) where
  | removeAll (dir : Path)
  | write (p : Path) (content : List α)
  | append (p : Path) (line : α)
deriving DecidableEq

variable {α : Type}

/-- `std::filesystem::remove_all`, opening with truncation, and a stream opened with `std::ios::app`.
(src/solver/ProbesManager.cpp:191-216, 363-370) -/
def exec (fs : FS α) : Op α → FS α
  | .removeAll d => fs.filter fun f => !d.isPrefixOf f.1
  | .write p c => Assoc.assign fs p c
  | .append p l => Assoc.assign fs p ((Assoc.find fs p).getD [] ++ [l])

/-- One after the other. (src/solver/ProbesManager.cpp:498-530) -/
def execAll (fs : FS α) (ops : List (Op α)) : FS α := ops.foldl exec fs

/-! ### Point and field probes -/

/-- The two kinds of probes that record values at a point. (src/components/Probes.h:75, 132) -/
inductive Kind where
  | point
  | field
deriving DecidableEq

/-- A line of a probe file: one of the four lines of the header, or an instant with its values.
(src/solver/ProbesManager.cpp:211-215, 249-253, 368-369, 404-407) -/
inductive Text (K : Type) where
  | header (kind : Kind) (id : Nat)
  | row (time : K) (values : List K)
deriving DecidableEq

/-- A point or field probe (src/components/Probes.h:73-159).  `found r` is the element that `FindPoints` gives rank `r`: not
negative where the point was found, -2 on the other ranks, -1 on all of them when it was found nowhere. -/
structure Probe where
  kind  : Kind
  id    : Nat
  steps : Int
  write : Bool
  found : Nat → Int

/-- src/solver/ProbesManager.cpp:187, 204, 224, 241. -/
def Probe.path (p : Probe) : Path :=
  match p.kind with
  | .point => [.dir "PointProbes", .pointFile p.id]
  | .field => [.dir "FieldProbes", .fieldFile p.id]

variable {K : Type} [Field K] [LinearOrder K]

/-- src/solver/ProbesManager.cpp:200-219, 237-257: the header of one probe, written by rank `r` (four lines, kept as one). -/
def headerOps (r : Nat) (p : Probe) : List (Op (Text K)) :=
  if p.write = true ∧ p.found r ≠ -2 then [.write p.path [.header p.kind p.id]] else []

/-- An instant shown to the probes: cycle, time, and the fields as the values at an element of a rank.
(src/solver/ProbesManager.cpp:344-411) -/
structure Instant (K : Type) where
  cycle  : Nat
  time   : K
  values : Probe → List K

/-- src/solver/ProbesManager.cpp:344-373, 375-411: one probe at one instant on rank `r`.  `none`: division by zero in the gate,
or values read from element -1. -/
def updateOps (final : K) (r : Nat) (i : Instant K) (p : Probe) : Option (List (Op (Text K))) :=
  match gate final i.cycle p.steps i.time with
  | none => none
  | some false => some []
  | some true =>
    if p.found r = -2 then some []
    else if p.found r < 0 then none
    else if p.write then some [.append p.path (.row i.time (i.values p))] else some []

/-- src/solver/ProbesManager.cpp:498-509: field probes first, then point probes. -/
def instantOps (final : K) (r : Nat) (ps : List Probe) (i : Instant K) : Option (List (Op (Text K))) :=
  (((ps.filter fun p => p.kind = .field) ++ ps.filter fun p => p.kind = .point).mapM (updateOps final r i)).map List.flatten

/-- src/solver/ProbesManager.cpp:186-196, 223-233: the node root clears a directory if there are probes of that kind. -/
def clearOps (root : Bool) (k : Kind) (ps : List Probe) : List (Op (Text K)) :=
  if root = true ∧ (ps.any fun p => p.kind = k) then
    [.removeAll (match k with
      | .point => [.dir "PointProbes"]
      | .field => [.dir "FieldProbes"])]
  else []

/-- src/solver/ProbesManager.cpp:186-197: until the first barrier. -/
def progA (root : Bool) (ps : List Probe) : List (Op (Text K)) := clearOps root .point ps

/-- src/solver/ProbesManager.cpp:199-234: between the barriers. -/
def progB (root : Bool) (r : Nat) (ps : List Probe) : List (Op (Text K)) :=
  (ps.filter fun p => p.kind = .point).flatMap (headerOps r) ++ clearOps root .field ps

/-- src/solver/ProbesManager.cpp:236-259 and all the instants of the run (498-529). -/
def progC (final : K) (r : Nat) (ps : List Probe) (is : List (Instant K)) : Option (List (Op (Text K))) :=
  (is.mapM (instantOps final r ps)).map fun l =>
    (ps.filter fun p => p.kind = .field).flatMap (headerOps r) ++ l.flatten

/-! ### Probes that write one file per snapshot -/

/-- src/solver/ProbesManager.cpp:425-455: a near-field snapshot (a directory, kept as one file).  Nothing is cleared before the
first one (lines 284-300). -/
def nearFieldOps (probe : String) (r : Nat) (recs : List (Nat × α)) : List (Op α) :=
  recs.map fun c => .write [.dir "NearToFarFieldProbes", .dir probe, .rank r, .snapshot probe c.1] [c.2]

/-- src/components/FarField.cpp:150-161 `getSortedSnapshotDirs` without the order: everything below the directory of a rank. -/
def snapshotsRead (fs : FS α) (probe : String) (r : Nat) : List (Path × List α) :=
  fs.filter fun f => List.isPrefixOf [.dir "NearToFarFieldProbes", .dir probe, .rank r] f.1

/-- src/solver/ProbesManager.cpp:457-496: the snapshots of the domain on the only rank; the directory is cleared at cycle 0. -/
def domainOps (r : Nat) (recs : List (Nat × α)) : List (Op α) :=
  recs.flatMap fun c => (if c.1 = 0 then [.removeAll [.dir "DomainSnapshotProbes"]] else []) ++
    [.write [.dir "DomainSnapshotProbes", .rank r, .cycle c.1] [c.2]]

/-- src/solver/ProbesManager.cpp:617-650: the snapshots for reduction. -/
def morOps (probe : String) (files : List (Int × α)) : List (Op α) :=
  files.map fun c => .write [.dir "MORStateProbes", .dir probe, .state c.1] [c.2]

end Dgtd.ProbeFiles
