/-
Model of one plane wave of a case file as the solver and the cross-section post-processing read it.
-/
import Verif.Model.RcsDriver
import Verif.Model.Wave

namespace Dgtd.Rcs
open Dgtd.Wave (V3 Planewave)

noncomputable section

/-- The members of a source of type `planewave` (src/driver/driver.cpp:563-610, src/components/FarField.cpp:212-261).
`elems` are the boundary elements of the mesh with one of its tags, by their vertices; `none` without `tags`. -/
structure WaveEntry where
  spread : ℝ
  mean   : Option V3
  elems  : Option (List (List V3))
  freqHz : Option ℝ
  pol    : V3
  prop   : V3

/-- src/driver/driver.cpp:570-589: the mean used by the solver. -/
def WaveEntry.solverMean (e : WaveEntry) : V3 :=
  match e.mean with
  | some m => m
  | none =>
    match e.elems with
    | some l => Wave.autoMean e.spread e.prop l
    | none => fun _ => 0

/-- src/driver/driver.cpp:563-610: the wave of the solver. -/
def WaveEntry.solverWave (e : WaveEntry) : Option Planewave :=
  Wave.buildPlanewave e.spread e.solverMean e.freqHz e.pol e.prop

/-- src/components/FarField.cpp:214-224, 226-252: what the post-processing takes from the same entry.  The mesh is the
one of the file in the directory of the case; both programs are taken to see the same boundary elements. -/
def WaveEntry.rcsSource (e : WaveEntry) : JsonSource :=
  { planewave := true
    spread := e.spread
    mean := e.mean.map fun m => Wave.dot m (fun d => e.prop d / Wave.norm e.prop)
    phases := e.elems.map fun l => l.map fun x => Wave.dot (Wave.centroid x) (fun d => e.prop d / Wave.norm e.prop) / 1
    frequencyHz := e.freqHz }

end

end Dgtd.Rcs
