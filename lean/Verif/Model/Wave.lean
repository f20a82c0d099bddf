/-
Model of the incident fields over the reals: plane waves, the dipole, their time profiles, and the delay that the driver
chooses for them.  Rounding is not modelled; speed of light and permittivity of vacuum are one, as in
src/math/PhysicalConstants.h:8-17.
-/
import Verif.Model.Spherical
import Verif.Model.Config
import Mathlib.Analysis.SpecialFunctions.Trigonometric.Deriv
import Mathlib.Analysis.SpecialFunctions.ExpDeriv

namespace Dgtd.Wave
open Dgtd.Config (FieldType)

noncomputable section

/-- A vector with three components; directions are `Fin 3`. (src/math/Function.h:329-415) -/
abbrev V3 := Fin 3 → ℝ

/-- `mfem::Vector::operator*`. (src/math/Function.h:405, src/driver/driver.cpp:496, 516) -/
def dot (a b : V3) : ℝ := a 0 * b 0 + a 1 * b 1 + a 2 * b 2

/-- `mfem::Vector::Norml2`. (src/math/Function.h:338-339, 349-354, src/driver/driver.cpp:496, 516) -/
def norm (a : V3) : ℝ := Real.sqrt (dot a a)

/-- src/math/Calculus.h:7-16 `crossProduct`. -/
def cross (a b : V3) : V3 := ![a 1 * b 2 - a 2 * b 1, a 2 * b 0 - a 0 * b 2, a 0 * b 1 - a 1 * b 0]

/-- src/math/Function.h:71-77 `Gaussian::eval` in one dimension. -/
def gaussian (spread mean u : ℝ) : ℝ := Real.exp (-(u - mean) ^ 2 / (2 * spread ^ 2))

/-- src/math/Function.h:130-136 `ModulatedGaussian::eval`. -/
def modulated (spread mean freq u : ℝ) : ℝ :=
  Real.exp (-(u - mean) * (u - mean) / (2 * spread * spread)) * Real.cos (2 * Real.pi * freq * (u - mean))

/-- src/math/Function.h:329-416 `Planewave`. -/
structure Planewave where
  fn    : ℝ → ℝ
  pol   : V3
  prop  : V3
  ftype : FieldType

/-- src/math/Function.h:331-341, the constructor, followed by the copy made by `TotalField`
(src/math/Function.h:343-355): a zero vector normalises to not-a-number and the copy raises an error. -/
def Planewave.make (fn : ℝ → ℝ) (p dir : V3) (ft : FieldType) : Option Planewave :=
  if norm p = 0 ∨ norm dir = 0 then none
  else some ⟨fn, fun d => p d / norm p, fun d => dir d / norm dir, ft⟩

/-- src/math/Function.h:393-403: positions with fewer coordinates are completed with zeros. -/
def pad (p : List ℝ) : V3 := ![p.getD 0 0, p.getD 1 0, p.getD 2 0]

/-- src/math/Function.h:366-391: direction of a field. -/
def Planewave.dirOf (w : Planewave) : FieldType → V3
  | .E => match w.ftype with
    | .E => w.pol
    | .H => cross w.pol w.prop
  | .H => match w.ftype with
    | .H => w.pol
    | .E => cross w.prop w.pol

/-- src/math/Function.h:361-409 `Planewave::eval`. -/
def Planewave.eval (w : Planewave) (p : List ℝ) (t : ℝ) (ft : FieldType) (d : Fin 3) : ℝ :=
  w.fn (dot (pad p) w.prop / 1 - t) * w.dirOf ft d

/-- src/driver/driver.cpp:483-519 `buildGaussianPlanewave`, `buildModulatedGaussianPlanewave`: the mean is projected on
the direction of propagation. -/
def projMean (mean dir : V3) : ℝ := dot mean dir / norm dir

/-- `buildGaussianPlanewave`. (src/driver/driver.cpp:483-499) -/
def buildPlanewave (spread : ℝ) (mean : V3) (freqSI : Option ℝ) (pol dir : V3) : Option Planewave :=
  match freqSI with
  | none => Planewave.make (gaussian spread (projMean mean dir)) pol dir .E
  | some f => Planewave.make (modulated spread (projMean mean dir) (f / 299792458)) pol dir .E

/-! ### The dipole -/

/-- src/math/Function.h:274, 277-282: argument and derivatives of the retarded current; `w` is `spread·√2`. -/
def iret (w u : ℝ) : ℝ := w * Real.exp 1 / 2 * 1 * Real.exp (-(u / w * (u / w)))
/-- `diret`. (src/math/Function.h:281) -/
def diret (w u : ℝ) : ℝ := -(iret w u) * 2 * (u / w) / w
/-- `doublediret`. (src/math/Function.h:282) -/
def ddiret (w u : ℝ) : ℝ := diret w u * (-2) * (u / w) / w + iret w u * (-2) / w / w

/-- src/math/PhysicalConstants.h:16-17. -/
def invFourPi : ℝ := 1 / (4 * Real.pi)

/-- src/math/Function.h:254-320 `DerivGaussDipole::eval` at a position of the space; divisions by a zero radius are
undefined. -/
def dipole (len spread mean : ℝ) (p : List ℝ) (t : ℝ) (ft : FieldType) : Option V3 :=
  (Spherical.ofCartesian p).bind fun s =>
    if s.radius = 0 then none
    else
      let w := spread * Real.sqrt 2
      let u := t - mean - s.radius / 1
      let r2 := s.radius * s.radius
      let r3 := r2 * s.radius
      let sint := Real.sin s.theta
      let cost := Real.cos s.theta
      let er := len / 1 * invFourPi * 2 * cost * (iret w u / r3 + diret w u / (1 * r2))
      let et := len / 1 * invFourPi * sint * (iret w u / r3 + diret w u / (1 * r2) + ddiret w u / (1 * s.radius))
      let hp := len / 1 * invFourPi * sint * (ddiret w u / (s.radius * 1) + diret w u / r2)
      some (match ft with
        | .E => Spherical.fieldToCartesian s er et 0
        | .H => Spherical.fieldToCartesian s 0 0 hp)

/-! ### Automatic delays -/

/-- src/driver/driver.cpp:411-423 `bdrElemCentroid`, in the dimension of the mesh: the mean of the vertices. -/
def centroid (verts : List V3) : V3 := fun d => (verts.map fun v => v d).sum / verts.length

/-- src/driver/driver.cpp:438-447, 453-472: the minimum over the tagged elements of all the ranks, or zero if there are
none. -/
def minOrZero (l : List ℝ) : ℝ := (l.min?).getD 0

/-- src/driver/driver.cpp:577-583: the mean of a plane wave without `mean`, from the tagged boundary elements. -/
def autoMean (spread : ℝ) (dir : V3) (elems : List (List V3)) : V3 :=
  let dhat : V3 := fun d => dir d / norm dir
  let minPhase := minOrZero (elems.map fun e => dot (centroid e) dhat / 1)
  fun d => (minPhase - 5 * spread * Real.sqrt 2) * dhat d

/-- src/driver/driver.cpp:622-627: the mean of a dipole without `mean`. -/
def autoDipoleMean (spread : ℝ) (elems : List (List V3)) : ℝ :=
  max (spread * Real.sqrt 2) (5 * spread * Real.sqrt 2 - minOrZero (elems.map fun e => norm (centroid e)) / 1)

end

end Dgtd.Wave
