/-
Vocabulary for the folders of surface probes.
-/
import Verif.Model.SurfaceDirs
import Verif.Spec.ProbeFiles

namespace Dgtd.SurfaceDirs.Spec
open Dgtd.SurfaceDirs Dgtd.ProbeFiles.Spec
open Dgtd.ProbeFiles (Name Path FS Op exec execAll)
open Dgtd.Stats (tag)

variable {K G F T : Type} [Field K] [LinearOrder K]

/-- An execution of a run that comes to its end: no rank throws, and the ranks go on in any order. -/
def Finishes (R : Run K G F) (tr : List (Nat × Op (Chunk K G F T))) : Prop :=
  (∀ r < R.n, ∃ ops : List (Op (Chunk K G F T)), prog R r = some ops) ∧ Interleaving R.n (fun r => (prog R r).getD []) tr

/-- The files after it. -/
def after (fs : FS (Chunk K G F T)) (tr : List (Nat × Op (Chunk K G F T))) : FS (Chunk K G F T) := execAll fs (tr.map Prod.snd)

/-- A file in the folder of a rank of a surface probe: `<mode>/<case>/RCSSurface/<probe>/rank<digits>/...`. -/
def InRankFolder (cuda : Bool) (n : Nat) (case name s : String) (p : Path) : Prop :=
  isRank s = true ∧ [.dir (tag cuda n), .dir case, .dir "RCSSurface", .dir name, .dir s] <+: p

/-- The file that an operation may create. -/
def creates : Op (Chunk K G F T) → Option Path
  | .removeAll _ => none
  | .write p _ => some p
  | .append p _ => some p

/-- Something that may have happened earlier: any step of any run of the program, whether that run came to its end or not, or any change
elsewhere, such as the other output of runs and the results of earlier post-processing. -/
def Earlier (o : Op (Chunk K G F T)) : Prop :=
  (∃ cuda n case name, ∃ r < n, ∃ p, creates o = some p ∧
    (p = baseOf cuda n case name ++ [.dir (rankName r), .dir "mesh"] ∨
      p = baseOf cuda n case name ++ [.dir (rankName r), .dir "surface_data.bin"])) ∨
  (∀ p, creates o = some p → ∀ cuda n case name s, ¬ InRankFolder cuda n case name s p)

/-- What a directory iterator goes through: every directory once. -/
def Listing (fs : FS (Chunk K G F T)) (base : Path) (l : List String) : Prop :=
  l.Nodup ∧ ∀ s, s ∈ l ↔ ∃ p, Assoc.find fs p ≠ none ∧ childDir base p = some s

/-- An instant that a probe records. -/
def Recorded (final : K) (steps : Int) (i : Instant K F) : Prop :=
  (i.cycle : Int) % steps = 0 ∨ |i.time - final| < 1 / 100000000

open Classical in
/-- What a run should leave of a rank that has the piece `g` of the surface. -/
noncomputable def expected (R : Run K G F) (p : Probe G) (g : G) (r : Nat) : Data K G F :=
  ⟨g, g, (R.instants.filter fun i => Recorded R.final p.steps i).map fun i => (i.time, g, i.fields r)⟩

end Dgtd.SurfaceDirs.Spec
