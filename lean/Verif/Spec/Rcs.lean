/-
Vocabulary for C48, C49, C51, C52 and C68: the far field of a set of surface samples, with the textbook formulas
(Taflove, chapter 8).
-/
import Verif.Model.Rcs
import Mathlib.Algebra.BigOperators.Group.List.Basic
import Mathlib.Analysis.SpecialFunctions.Complex.Circle

namespace Dgtd.Rcs.Spec

noncomputable section

/-- A piece of the closed surface: position, normal times area (outward, as `CalcOrtho` gives it), and the recorded history of the six field
components at that point. -/
structure Sample where
  pos : Fin 3 → ℝ
  area : Fin 3 → ℝ
  series : List (ℝ × (Fin 6 → ℝ))

/-- Scalar and vector products. -/
def dot (a b : Fin 3 → ℝ) : ℝ := a 0 * b 0 + a 1 * b 1 + a 2 * b 2
def cross (n : Fin 3 → ℝ) (F : Fin 3 → ℂ) : Fin 3 → ℂ :=
  ![n 1 * F 2 - n 2 * F 1, n 2 * F 0 - n 0 * F 2, n 0 * F 1 - n 1 * F 0]

/-- Direction of observation. -/
def direction (a : Angles) : Fin 3 → ℝ :=
  ![Real.sin a.theta * Real.cos a.phi, Real.sin a.theta * Real.sin a.phi, Real.cos a.theta]

/-- Mean over the recorded times of `exp(-2πi f t) u(t)`. -/
def transform (f : ℝ) (u : List (ℝ × ℝ)) : ℂ :=
  (u.map fun p => Complex.exp (-(2 * Real.pi * f * p.1 : ℝ) * Complex.I) * (p.2 : ℂ)).sum / (u.length : ℂ)

def Sample.E (s : Sample) (f : ℝ) : Fin 3 → ℂ :=
  fun c => transform f (s.series.map fun p => (p.1, p.2 ⟨c.val, by omega⟩))
def Sample.H (s : Sample) (f : ℝ) : Fin 3 → ℂ :=
  fun c => transform f (s.series.map fun p => (p.1, p.2 ⟨3 + c.val, by omega⟩))

/-- Phase of a sample seen from a direction. -/
def phase (f : ℝ) (a : Angles) (pos : Fin 3 → ℝ) : ℂ :=
  Complex.exp ((2 * Real.pi * f * dot pos (direction a) : ℝ) * Complex.I)

/-- Radiation vectors of the currents `J = n × H` and `M = -n × E`. -/
def N (l : List Sample) (f : ℝ) (a : Angles) : Fin 3 → ℂ :=
  (l.map fun s => phase f a s.pos • cross s.area (s.H f)).sum
def L (l : List Sample) (f : ℝ) (a : Angles) : Fin 3 → ℂ :=
  (l.map fun s => -(phase f a s.pos • cross s.area (s.E f))).sum

/-- The spherical unit vectors and components along them. -/
def eTheta (a : Angles) : Fin 3 → ℝ :=
  ![Real.cos a.theta * Real.cos a.phi, Real.cos a.theta * Real.sin a.phi, -Real.sin a.theta]
def ePhi (a : Angles) : Fin 3 → ℝ := ![-Real.sin a.phi, Real.cos a.phi, 0]
def along (e : Fin 3 → ℝ) (v : Fin 3 → ℂ) : ℂ := e 0 * v 0 + e 1 * v 1 + e 2 * v 2

/-- `N_θ, N_φ, L_θ, L_φ`. -/
def farField (l : List Sample) (f : ℝ) (a : Angles) : Fin 4 → ℂ :=
  ![along (eTheta a) (N l f a), along (ePhi a) (N l f a), along (eTheta a) (L l f a), along (ePhi a) (L l f a)]

/-- The sample of an integration point: in two dimensions third coordinates are dropped.  Fields are interpolated with
the basis functions of the element. -/
def sampleOf (is3D : Bool) (snaps : List Snapshot) (f : Face) (q : Pt) : Sample where
  pos := if is3D then q.pos else ![q.pos 0, q.pos 1, 0]
  area := if is3D then fun d => q.w * q.ortho d else ![q.w * q.ortho 0, q.w * q.ortho 1, 0]
  series := snaps.map fun s => (s.time, fun c => ((List.range f.ndof).map fun i => q.shape i * s.f c (f.dofs i)).sum)

/-- All samples of a rank, of all ranks. -/
def samplesOf (is3D : Bool) (R : Rank) : List Sample :=
  R.faces.flatMap fun f => f.pts.map (sampleOf is3D R.snaps f)
def samples (is3D : Bool) (ranks : List Rank) : List Sample := ranks.flatMap (samplesOf is3D)

/-- Well-formed rank: element degrees of freedom exist. -/
def WF (R : Rank) : Prop := ∀ f ∈ R.faces, ∀ i < f.ndof, f.dofs i < R.nDofs

/-- No integration point at the origin of coordinates. -/
def AwayFromOrigin (is3D : Bool) (ranks : List Rank) : Prop := ∀ s ∈ samples is3D ranks, s.pos ≠ 0

/-- Radiation intensity of the far field. -/
def intensity (is3D : Bool) (f : ℝ) (x : Fin 4 → ℂ) : ℝ :=
  (2 * Real.pi * f) ^ 2 / (if is3D then 32 * Real.pi ^ 2 else 32) * (‖x 3 + x 0‖ ^ 2 + ‖x 2 - x 1‖ ^ 2)

/-- Power of the incident wave `g` at a frequency: its transform over the recorded times. -/
def incident (g : ℝ → ℝ) (times : List ℝ) (f : ℝ) : ℝ := ‖transform f (times.map fun t => (t, g t))‖ ^ 2 / 2

/-- The incident pulse at the origin. -/
def pulse (pw : PlaneWave) (t : ℝ) : ℝ :=
  Real.exp (-((t - |pw.mean|) ^ 2) / (2 * pw.spread ^ 2)) *
    (if pw.frequency = 0 then 1 else Real.cos (2 * Real.pi * pw.frequency * (t - |pw.mean|)))

/-- Cross section: `4π U / P` in space, `4 U / (k P)` in the plane. -/
def crossSection (is3D : Bool) (f P U : ℝ) : ℝ := if is3D then 4 * Real.pi * U / P else 4 * U / (2 * Real.pi * f * P)

/-- The recording up to a time. -/
def upTo (m : ℝ) (R : Rank) : Rank := { R with snaps := R.snaps.filter fun s => decide (s.time ≤ m) }

/-- A linear combination of two recordings made at the same times. -/
def combine (x y : ℝ) (s t : Snapshot) : Snapshot := ⟨s.time, fun c v => x * s.f c v + y * t.f c v⟩

open Classical in
/-- Number of times an element occurs. -/
def occ {A : Type} (x : A) (l : List A) : Nat := l.count x

/-! ### threads -/

/-- An execution: any interleaving in which every thread runs its program. -/
def Interleaving (nSnap nFreq : Nat) (owner : Nat → Nat) (ops : List Op) : Prop :=
  ∀ th, ops.filter (fun o => o.thread = th) = program nSnap nFreq owner th

end

end Dgtd.Rcs.Spec
