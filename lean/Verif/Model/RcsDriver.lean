/-
Model of the request handling of the cross-section post-processing: src/driver/rcs_driver.cpp, and of
`buildPlaneWaveData` in src/components/FarField.cpp.
-/
import Verif.Model.Rcs

namespace Dgtd.Rcs

noncomputable section

/-- src/driver/rcs_driver.cpp:20-29. -/
def linspace (a b : ℝ) : Nat → List ℝ
  | 0 => []
  | 1 => [a]
  | n + 2 =>
    let h := (b - a) / ((n + 1 : ℕ) : ℝ)
    (List.range (n + 2)).map fun (i : ℕ) => a + (i : ℝ) * h

/-- src/driver/rcs_driver.cpp:64-67. -/
def angleList (thetas phis : List ℝ) : List Angles :=
  thetas.foldl (fun acc t => phis.foldl (fun acc p => acc ++ [⟨t, p⟩]) acc) []

/-- A source of the case file, as far as src/components/FarField.cpp:212-261 looks at it.  `phases` are the phases of the centres
of the tagged boundary faces of the mesh (lines 226-252), `none` when there is no mesh directory or no tags. -/
structure JsonSource where
  planewave : Bool
  spread : ℝ
  /-- projection of the mean on the propagation direction, if the file has a mean -/
  mean : Option ℝ
  phases : Option (List ℝ)
  frequencyHz : Option ℝ

/-- src/components/FarField.cpp:232-255: minimum of the phases, 0 without tagged faces. -/
def minPhase (ps : List ℝ) : ℝ :=
  match ps with
  | [] => 0
  | p :: r => r.foldl min p

/-- src/components/FarField.cpp:218-258. -/
def projMean (s : JsonSource) : ℝ :=
  match s.mean with
  | some m => m
  | none =>
    match s.phases with
    | some ps => minPhase ps - 5 * s.spread * Real.sqrt 2
    | none => -5 * s.spread * Real.sqrt 2

/-- src/components/FarField.cpp:212-261: the loop over the sources. -/
def planeWaveLoop (acc : PlaneWave) (s : JsonSource) : PlaneWave :=
  if s.planewave then
    { spread := s.spread
      mean := projMean s
      frequency := match s.frequencyHz with
        | some f => f / cSI
        | none => acc.frequency }
  else acc

/-- src/components/FarField.cpp:206-268 `buildPlaneWaveData`; `none` is the exception. -/
def buildPlaneWaveData (sources : List JsonSource) : Option PlaneWave :=
  let pw := sources.foldl planeWaveLoop ⟨-100000, -100000, 0⟩
  if |pw.spread - 100000| < 1 / 1000000 ∨ |pw.mean - 100000| < 1 / 1000000 then none else some pw

/-- src/driver/rcs_driver.cpp:47-86 for one probe, the rank data having been read. -/
def runRequest (is3D : Bool) (maxTime : Option ℝ) (f0 f1 : ℝ) (nf : Nat) (t0 t1 : ℝ) (nt : Nat) (p0 p1 : ℝ) (np : Nat)
    (sources : List JsonSource) (ranks : List Rank) : Option (List (Angles × List Row)) :=
  (buildPlaneWaveData sources).bind fun pw =>
    run is3D maxTime (linspace f0 f1 nf) (angleList (linspace t0 t1 nt) (linspace p0 p1 np)) pw ranks

end

end Dgtd.Rcs
