/-
Vocabulary for C182: the cross section of fields that are known at all times, with the integrals of the textbook in place of sums over recorded
instants.
-/
import Verif.Spec.Rcs
import Mathlib.MeasureTheory.Integral.IntervalIntegral.Basic

namespace Dgtd.Spectra.Spec
open Dgtd.Rcs Dgtd.Rcs.Spec

noncomputable section

/-- Fourier integral of a signal from time zero to time `T`. -/
def spectralIntegral (T f : ℝ) (u : ℝ → ℝ) : ℂ :=
  ∫ t in (0 : ℝ)..T, Complex.exp (-(2 * Real.pi * f * t : ℝ) * Complex.I) * (u t : ℂ)

/-- A point of the surface: position, normal times area, and the six components of the fields there at all times. -/
structure Point where
  pos : Fin 3 → ℝ
  area : Fin 3 → ℝ
  field : Fin 6 → ℝ → ℝ

/-- Spectra of the electric and the magnetic field. -/
def Point.E (p : Point) (T f : ℝ) : Fin 3 → ℂ := fun c => spectralIntegral T f (p.field ⟨c.val, by omega⟩)
def Point.H (p : Point) (T f : ℝ) : Fin 3 → ℂ := fun c => spectralIntegral T f (p.field ⟨3 + c.val, by omega⟩)

/-- Radiation vectors of the currents `J = n × H` and `M = -n × E` on the surface. -/
def N (l : List Point) (T f : ℝ) (a : Angles) : Fin 3 → ℂ := (l.map fun s => phase f a s.pos • cross s.area (s.H T f)).sum
def L (l : List Point) (T f : ℝ) (a : Angles) : Fin 3 → ℂ := (l.map fun s => -(phase f a s.pos • cross s.area (s.E T f))).sum

/-- `N_θ, N_φ, L_θ, L_φ`. -/
def radiated (l : List Point) (T f : ℝ) (a : Angles) : Fin 4 → ℂ :=
  ![along (eTheta a) (N l T f a), along (ePhi a) (N l T f a), along (eTheta a) (L l T f a), along (ePhi a) (L l T f a)]

/-- The cross section: what the surface radiates at a frequency in a direction, relative to the power of the incident pulse at that frequency. -/
def exactSection (is3D : Bool) (pw : PlaneWave) (l : List Point) (T f : ℝ) (a : Angles) : ℝ :=
  crossSection is3D f (‖spectralIntegral T f (pulse pw)‖ ^ 2 / 2) (intensity is3D f (radiated l T f a))

/-- The part of the surface that a rank has, with the values of the fields at its unknowns at all times. -/
structure Site where
  nDofs : Nat
  faces : List Face
  u : Fin 6 → Nat → ℝ → ℝ

/-- The unknowns of the faces exist, and the surface does not pass through the origin of coordinates. -/
def Site.Sound (is3D : Bool) (S : Site) : Prop :=
  (∀ f ∈ S.faces, ∀ i < f.ndof, f.dofs i < S.nDofs) ∧ ∀ f ∈ S.faces, ∀ q ∈ f.pts, (if is3D then q.pos else ![q.pos 0, q.pos 1, 0]) ≠ 0

/-- The integration points of the surface; fields between unknowns are interpolated with the basis functions of the element. -/
def Site.points (is3D : Bool) (S : Site) : List Point :=
  S.faces.flatMap fun f => f.pts.map fun q =>
    { pos := if is3D then q.pos else ![q.pos 0, q.pos 1, 0]
      area := if is3D then fun d => q.w * q.ortho d else ![q.w * q.ortho 0, q.w * q.ortho 1, 0]
      field := fun c t => ((List.range f.ndof).map fun i => q.shape i * S.u c (f.dofs i) t).sum }

/-- The points of all ranks. -/
def surface (is3D : Bool) {n : Nat} (S : Fin n → Site) : List Point := (List.ofFn S).flatMap (Site.points is3D)

/-- Instants that cover the time from zero to `T` evenly, up to `d`. -/
structure Covers (d T : ℝ) (times : List ℝ) : Prop where
  fine : T ≤ d * times.length
  inside : ∀ t ∈ times, 0 ≤ t ∧ t ≤ T
  even : ∀ (j : Nat) (h : j < times.length), |times[j] - j * T / times.length| ≤ d

/-- What a rank recorded at these instants: the fields up to an error `e`. -/
structure Records (e : ℝ) (times : List ℝ) (S : Site) (R : Rank) : Prop where
  nDofs : R.nDofs = S.nDofs
  faces : R.faces = S.faces
  times : R.snaps.map Snapshot.time = times
  close : ∀ s ∈ R.snaps, ∀ c, ∀ v < S.nDofs, |s.f c v - S.u c v s.time| ≤ e

end

end Dgtd.Spectra.Spec
