/-
Model of the radar-cross-section post-processing: src/components/RCSSurfacePostProcessor.cpp, the kernels of
src/components/FarField.cpp, the surface integrator of src/mfemExtension/LinearIntegrators.cpp, and the request
handling of src/driver/rcs_driver.cpp.

`double` is `ℝ`, `std::complex<double>` is `ℂ`.  A division 0/0 (not a number in the code) is failure (`none`).
-/
import Mathlib.Analysis.SpecialFunctions.Trigonometric.Inverse
import Mathlib.Analysis.Complex.Trigonometric
import Mathlib.Analysis.Complex.Basic
import Mathlib.Data.List.OfFn

namespace Dgtd.Rcs

noncomputable section

/-- src/components/FarField.h:28-35 `SphericalAngles`. -/
structure Angles where
  theta : ℝ
  phi : ℝ

/-- src/math/PhysicalConstants.h:9, 15: `speedOfLight = 1`, `freeSpaceImpedance = 1`. -/
def c0 : ℝ := 1
/-- `freeSpaceImpedance`. (src/math/PhysicalConstants.h:14, src/components/RCSSurfacePostProcessor.cpp:403) -/
def Z0 : ℝ := 1

/-- src/components/RCSSurfacePostProcessor.cpp:46-63. -/
def thetaHat (a : Angles) : Fin 3 → ℝ :=
  ![Real.cos a.theta * Real.cos a.phi, Real.cos a.theta * Real.sin a.phi, -Real.sin a.theta]
/-- `phiHat`. (src/components/RCSSurfacePostProcessor.cpp:53-56) -/
def phiHat (a : Angles) : Fin 3 → ℝ := ![-Real.sin a.phi, Real.cos a.phi, 0]
/-- `rHat`. (src/components/RCSSurfacePostProcessor.cpp:58-63) -/
def rHat (a : Angles) : Fin 3 → ℝ :=
  ![Real.sin a.theta * Real.cos a.phi, Real.sin a.theta * Real.sin a.phi, Real.cos a.theta]

/-- src/components/RCSSurfacePostProcessor.cpp:65-69 `dot3`. -/
def dot3 (a : Fin 3 → ℝ) (b : Fin 3 → ℂ) : ℂ := a 0 * b 0 + a 1 * b 1 + a 2 * b 2

/-! ### snapshots -/

/-- Time and six components (Ex, Ey, Ez, Hx, Hy, Hz) of the fields on the surface mesh. (src/components/RCSSurfacePostProcessor.h:23-27) -/
structure Snapshot where
  time : ℝ
  f : Fin 6 → Nat → ℝ

/-- src/components/RCSSurfacePostProcessor.cpp:233-246: `remove_if` with the optional maximum time; throws (`none`) when
nothing is left. -/
def filterTime (maxTime : Option ℝ) (snaps : List Snapshot) : Option (List Snapshot) :=
  match maxTime with
  | none => some snaps
  | some m =>
    match snaps.filter (fun s => !decide (s.time > m)) with
    | [] => none
    | s :: r => some (s :: r)

/-- src/components/RCSSurfacePostProcessor.cpp:292-293: the weight of a time in the Fourier sum. -/
def kernel (freq time : ℝ) : ℂ :=
  let arg := 2 * Real.pi * freq * time
  ⟨Real.cos arg, -Real.sin arg⟩

/-- src/components/RCSSurfacePostProcessor.cpp:284-305 for one frequency, component and degree of freedom; a division
by zero snapshots is not a number. -/
def dft (snaps : List Snapshot) (freq : ℝ) (c : Fin 6) (v : Nat) : Option ℂ :=
  if snaps.length = 0 then none
  else some ((snaps.foldl (fun acc s => acc + ((s.f c v : ℝ) : ℂ) * kernel freq (s.time / c0)) 0) *
    ((1 / (snaps.length : ℝ) : ℝ) : ℂ))

/-! ### phase of the far field -/

/-- src/components/FarField.cpp:11-21 `buildObsPointVec`, radius 1e6 (FarField.h:26). -/
def obsPoint (a : Angles) : Fin 3 → ℝ :=
  let r : ℝ := 1000000
  ![r * Real.sin a.theta * Real.cos a.phi, r * Real.sin a.theta * Real.sin a.phi, r * Real.cos a.theta]

/-- `Norml2` of a vector with three components. (src/components/FarField.cpp:30, 36) -/
def norm3 (p : Fin 3 → ℝ) : ℝ := Real.sqrt (p 0 * p 0 + p 1 * p 1 + p 2 * p 2)

/-- `p.Norml2()` of a position with two or three coordinates. (src/components/FarField.cpp:36, 46) -/
def normPos (is3D : Bool) (p : Fin 3 → ℝ) : ℝ :=
  if is3D then norm3 p else Real.sqrt (p 0 * p 0 + p 1 * p 1)

/-- The vector used for the angle: src/components/FarField.cpp:26-29 drops the third coordinate in 2D. -/
def surfVec (is3D : Bool) (p : Fin 3 → ℝ) : Fin 3 → ℝ := if is3D then p else ![p 0, p 1, 0]

/-- src/components/FarField.cpp:23-37 `calcPsiAngle2D`, `calcPsiAngle3D`. -/
def psi (is3D : Bool) (p : Fin 3 → ℝ) (a : Angles) : Option ℝ :=
  let v := obsPoint a
  let s := surfVec is3D p
  let d := norm3 v * norm3 s
  if d = 0 then none else some (Real.arccos ((v 0 * s 0 + v 1 * s 1 + v 2 * s 2) / d))

/-- src/components/FarField.cpp:41-47: `rad_term`.  For frequency zero the wavelength is infinite in the code and the
wave number zero, as it is here. -/
def radTerm (is3D : Bool) (freq : ℝ) (p : Fin 3 → ℝ) (a : Angles) : Option ℝ :=
  let landa := c0 / freq
  let wavenumber := 2 * Real.pi / landa
  (psi is3D p a).map fun ps => wavenumber * normPos is3D p * Real.cos ps

/-! ### surface integrals -/

/-- One integration point of a surface face: position, vector of `CalcOrtho` (normal times surface measure), weight,
values of the element's basis functions. (src/mfemExtension/LinearIntegrators.cpp:329-360) -/
structure Pt where
  pos : Fin 3 → ℝ
  ortho : Fin 3 → ℝ
  w : ℝ
  shape : Nat → ℝ

/-- A surface face: degrees of freedom of its element, integration points. (src/mfemExtension/LinearIntegrators.cpp:323-361) -/
structure Face where
  ndof : Nat
  dofs : Nat → Nat
  pts : List Pt

/-- src/mfemExtension/LinearIntegrators.cpp:333-361 `NTFFBdrFaceIntegrator::AssembleRHSElementVect` for real part (cosine)
or imaginary part (sine); `dim` is the length of the normal. -/
def elVect (is3D : Bool) (dim : Nat) (trig : ℝ → ℝ) (freq : ℝ) (a : Angles) (dir : Fin 3) (pts : List Pt) :
    Option (Nat → ℝ) :=
  pts.foldlM (fun (v : Nat → ℝ) (q : Pt) =>
    let n := if dir.val < dim then -q.ortho dir else 0
    (radTerm is3D freq q.pos a).map fun r => fun i => v i + q.w * trig r * n * q.shape i) (fun _ => 0)

/-- MFEM's `AddElementVector`. (src/components/RCSSurfacePostProcessor.cpp:341-343, src/components/FarField.cpp:120-148) -/
def scatter (f : Face) (ev lf : Nat → ℝ) : Nat → ℝ :=
  (List.range f.ndof).foldl (fun lf i => Function.update lf (f.dofs i) (lf (f.dofs i) + ev i)) lf

/-- src/components/FarField.cpp:120-148 `assembleLinearForm`: in two dimensions the form for Z is assembled for X and
multiplied by zero. -/
def linearForm (is3D : Bool) (trig : ℝ → ℝ) (freq : ℝ) (a : Angles) (dir : Fin 3) (faces : List Face) :
    Option (Nat → ℝ) :=
  let dim := if is3D then 3 else 2
  let dir' := if is3D then dir else if dir = 2 then 0 else dir
  (faces.foldlM (fun (lf : Nat → ℝ) (f : Face) =>
    (elVect is3D dim trig freq a dir' f.pts).map fun ev => scatter f ev lf) (fun _ => 0)).map
    fun lf => if is3D = false ∧ dir = 2 then fun i => 0 * lf i else lf

/-- src/components/RCSSurfacePostProcessor.cpp:356-364: real and imaginary parts accumulated separately. -/
def pairing (nDofs : Nat) (lfR lfI : Nat → ℝ) (F : Nat → ℂ) : ℂ :=
  let s := (List.range nDofs).foldl (fun (s : ℝ × ℝ) v =>
    (s.1 + (lfR v * (F v).re - lfI v * (F v).im), s.2 + (lfR v * (F v).im + lfI v * (F v).re))) (0, 0)
  ⟨s.1, s.2⟩

/-- src/components/RCSSurfacePostProcessor.cpp:369-375: the two cross-product terms of a direction `j`. -/
def crossAdd (j : Fin 3) (hint : Fin 3 → ℂ) (v : Fin 3 → ℂ) : Fin 3 → ℂ :=
  let v := Function.update v (j + 1) (v (j + 1) + hint (j + 2))
  Function.update v (j + 2) (v (j + 2) - hint (j + 1))

/-- What a rank contributes: number of degrees of freedom, faces, snapshots. (src/components/RCSSurfacePostProcessor.h:61-64) -/
structure Rank where
  nDofs : Nat
  faces : List Face
  snaps : List Snapshot

/-- The frequency-domain fields of a rank. (src/components/RCSSurfacePostProcessor.cpp:274-305) -/
def freqField (snaps : List Snapshot) (freq : ℝ) : Option (Fin 6 → Nat → ℂ) :=
  if snaps.length = 0 then none else some fun c v => (dft snaps freq c v).getD 0

/-- One direction of src/components/RCSSurfacePostProcessor.cpp:341-376: `N_vec` and `L_vec`. -/
def nlStep (is3D : Bool) (R : Rank) (F : Fin 6 → Nat → ℂ) (freq : ℝ) (a : Angles) (NL : (Fin 3 → ℂ) × (Fin 3 → ℂ))
    (dir : Fin 3) : Option ((Fin 3 → ℂ) × (Fin 3 → ℂ)) := do
  let lfR ← linearForm is3D Real.cos freq a dir R.faces
  let lfI ← linearForm is3D Real.sin freq a dir R.faces
  let hint : Fin 3 → ℂ := fun c => pairing R.nDofs lfR lfI (F ⟨3 + c.val, by omega⟩)
  let eint : Fin 3 → ℂ := fun c => pairing R.nDofs lfR lfI (F ⟨c.val, by omega⟩)
  some (crossAdd dir hint NL.1, crossAdd dir (fun c => -eint c) NL.2)

/-- src/components/RCSSurfacePostProcessor.cpp:274-392 for one rank, frequency and direction: the four amplitudes
`N_theta, N_phi, L_theta, L_phi`. -/
def amplitudes (is3D : Bool) (R : Rank) (freq : ℝ) (a : Angles) : Option (Fin 4 → ℂ) := do
  let F ← freqField R.snaps freq
  let NL ← [(0 : Fin 3), 1, 2].foldlM (nlStep is3D R F freq a) (0, 0)
  some ![dot3 (thetaHat a) NL.1, dot3 (phiHat a) NL.1, dot3 (thetaHat a) NL.2, dot3 (phiHat a) NL.2]

/-- `coherentSum`: the accumulators, one per pair of direction and frequency.
(src/components/RCSSurfacePostProcessor.cpp:209-214, 387-392) -/
abbrev Acc := Angles × ℝ → Fin 4 → ℂ

open Classical in
/-- src/components/RCSSurfacePostProcessor.cpp:388-392: `acc[..] += ..`. -/
def bump (key : Angles × ℝ) (x : Fin 4 → ℂ) (acc : Acc) : Acc := Function.update acc key (acc key + x)

/-- src/components/RCSSurfacePostProcessor.cpp:320-394: all frequencies and directions of a rank. -/
def addRank (is3D : Bool) (freqs : List ℝ) (angles : List Angles) (acc : Acc) (R : Rank) : Option Acc :=
  freqs.foldlM (fun acc f => angles.foldlM (fun (acc : Acc) a =>
    (amplitudes is3D R f a).map fun x => bump (a, f) x acc) acc) acc

/-- src/components/RCSSurfacePostProcessor.cpp:211-214, 222-396: all ranks (after the optional time filter). -/
def coherentSum (is3D : Bool) (freqs : List ℝ) (angles : List Angles) (ranks : List Rank) : Option Acc :=
  ranks.foldlM (addRank is3D freqs angles) (fun _ => 0)

/-- src/components/RCSSurfacePostProcessor.cpp:402-427 `potRad`. -/
def potRad (is3D : Bool) (freq : ℝ) (x : Fin 4 → ℂ) : ℝ :=
  let k := 2 * Real.pi * freq
  let s := Complex.normSq (x 3 + (Z0 : ℂ) * x 0) + Complex.normSq (x 2 - (Z0 : ℂ) * x 1)
  if is3D then k * k / (32 * Real.pi * Real.pi * Z0) * s else k * k / (32 * Z0) * s

/-- src/components/RCSSurfacePostProcessor.cpp:435-444; a zero denominator is not a number or infinite. -/
def rcs (is3D : Bool) (freq power pot : ℝ) : Option ℝ :=
  let k := 2 * Real.pi * freq
  if is3D then (if power = 0 then none else some (4 * Real.pi / power * pot))
  else (if k * power = 0 then none else some (4 / (k * power) * pot))

/-- src/components/FarField.h:38-48 `PlaneWaveData`. -/
structure PlaneWave where
  spread : ℝ
  mean : ℝ
  frequency : ℝ

/-- src/components/FarField.cpp:281-288 and RCSSurfacePostProcessor.cpp:140-145: envelope with optional carrier;
dividing by a zero spread is not a number or zero. -/
def envelope (pw : PlaneWave) (t : ℝ) : Option ℝ :=
  if pw.spread = 0 then none
  else
    let g := Real.exp (-((t - |pw.mean|) ^ 2) / (2 * pw.spread ^ 2))
    some (if pw.frequency ≠ 0 then g * Real.cos (2 * Real.pi * pw.frequency * (t - |pw.mean|)) else g)

/-- src/components/RCSSurfacePostProcessor.cpp:131-158 `computeIncidentPowerSpectrum` for one frequency. -/
def incidentPower (pw : PlaneWave) (times : List ℝ) (freq : ℝ) : Option ℝ :=
  if times.length = 0 then none
  else (times.foldlM (fun (acc : ℂ) t => (envelope pw t).map fun e => acc + ((e : ℝ) : ℂ) * kernel freq t) 0).map
    fun val => Complex.normSq (val / ((times.length : ℝ) : ℂ)) / (2 * Z0)

/-- `speedOfLight_SI`, src/math/PhysicalConstants.h:10. -/
def cSI : ℝ := 299792458

/-- src/components/RCSSurfacePostProcessor.cpp:196-198: frequencies in Hz made dimensionless. -/
def normFreq (f : ℝ) : ℝ := f / cSI

/-- A line of the output files: frequency in Hz, `pot` of the far-field file, `rcs` of the cross-section file (`none` when
not a number), normalisation column. (src/components/RCSSurfacePostProcessor.cpp:433-483) -/
structure Row where
  freqHz : ℝ
  pot : ℝ
  rcs : Option ℝ
  norm : ℝ

/-- src/components/RCSSurfacePostProcessor.cpp:400-445, 462-479: a line of the files of a direction. -/
def row (is3D : Bool) (pw : PlaneWave) (times : List ℝ) (acc : Acc) (a : Angles) (f : ℝ) : Row :=
  let pot := potRad is3D f (acc (a, f))
  let lam := c0 / f
  { freqHz := f * cSI
    pot := pot
    rcs := (incidentPower pw times f).bind fun P => rcs is3D f P pot
    norm := if is3D then lam * lam else lam }

/-- src/components/RCSSurfacePostProcessor.cpp:249-252: in two dimensions every direction must be in the plane. -/
def anglesOk (is3D : Bool) (angles : List Angles) : Prop :=
  is3D = true ∨ ∀ a ∈ angles, ¬ |a.theta - Real.pi / 2| > 1 / 100000000

/-- src/components/RCSSurfacePostProcessor.cpp:233-246 for a rank. -/
def filterRank (maxTime : Option ℝ) (R : Rank) : Option Rank :=
  (filterTime maxTime R.snaps).map fun s => { R with snaps := s }

open Classical in
/-- src/components/RCSSurfacePostProcessor.cpp:179-484 `computeAndWriteResults`: for each requested direction, the lines of
its files.  All ranks are taken to have the same space dimension.  The ranks are filtered first and then summed up; in the
code both happen rank by rank, with the same results and errors.  `none`: an exception, or a sum that is not a number. -/
def run (is3D : Bool) (maxTime : Option ℝ) (freqsHz : List ℝ) (angles : List Angles) (pw : PlaneWave) (ranks : List Rank) :
    Option (List (Angles × List Row)) :=
  match ranks.mapM (filterRank maxTime) with
  | none => none
  | some [] => none
  | some (R :: Rs) =>
    if anglesOk is3D angles then
      (coherentSum is3D (freqsHz.map normFreq) angles (R :: Rs)).map fun acc =>
        angles.map fun a => (a, (freqsHz.map normFreq).map (row is3D pw (R.snaps.map fun s => s.time / c0) acc a))
    else none

/-! ### threads -/

/-- An operation of the transform: which thread runs it, and on which time and frequency.
(src/components/RCSSurfacePostProcessor.cpp:284-298) -/
structure Op where
  thread : Nat
  t : Nat
  fi : Nat
  deriving DecidableEq

/-- src/components/RCSSurfacePostProcessor.cpp:284-291: what a thread does, in its own order.  Every thread runs the loop over
times; `schedule(static)` gives a thread the same frequencies (`owner`) each time, and `nowait` lets it go on without
waiting for the others. -/
def program (nSnap nFreq : Nat) (owner : Nat → Nat) (th : Nat) : List Op :=
  (List.range nSnap).flatMap fun t => ((List.range nFreq).filter fun fi => owner fi = th).map fun fi => ⟨th, t, fi⟩

/-- src/components/RCSSurfacePostProcessor.cpp:292-296: an operation updates the entries of its frequency only.  `V` is
whatever is stored per frequency, `upd` the update made at a time. -/
def execOps {V : Type} (upd : Nat → Nat → V → V) (ops : List Op) (ff : Nat → V) : Nat → V :=
  ops.foldl (fun ff o => Function.update ff o.fi (upd o.t o.fi (ff o.fi))) ff

end

end Dgtd.Rcs
