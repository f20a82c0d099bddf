import Verif.Model.Layer

/-
Specification side of materials, source bandwidths and thin-layer resolution.
-/
namespace Dgtd.Layer.Spec

noncomputable section

/-- Highest frequency of a pulse: that of its envelope, shifted by the carrier if there is one. -/
def pulseTop (c : ℝ) (m : Magnitude) : Option ℝ :=
  match m.frequency, m.spread with
  | some f, some w => some (f + c / (2 * w))
  | none, some w => if m.gaussianType = true then some (c / (2 * w)) else none
  | _, none => none

/-- A pulse with carrier and bandwidth. -/
def Modulated (m : Magnitude) : Prop := m.frequency ≠ none ∧ m.spread ≠ none

/-- A Gaussian pulse without carrier. -/
def Plain (m : Magnitude) : Prop := m.frequency = none ∧ m.spread ≠ none ∧ m.gaussianType = true

/-- Widths and carriers are meaningful. -/
def Sound (m : Magnitude) : Prop := (∀ w, m.spread = some w → 0 < w) ∧ (∀ f, m.frequency = some f → 0 ≤ f)

/-- Wavelength of a wave of frequency `f` in a medium without losses: it covers `l` in a period at the speed `1 / √(μ ε)`. -/
def IsWavelength (k : Consts) (f relEps relMu l : ℝ) : Prop :=
  0 < l ∧ (l * f) ^ 2 * (relMu * k.mu0 * (relEps * k.eps0)) = 1

/-- Skin depth of a conductor at frequency `f`: the positive `d` with `π f μ σ d² = 1`. -/
def IsSkinDepth (k : Consts) (f relMu sigma d : ℝ) : Prop :=
  0 < d ∧ Real.pi * f * (relMu * k.mu0) * sigma * d ^ 2 = 1

/-- What is asked of the segments of a layer: at least twenty unknowns per wavelength and two segments per
skin depth. -/
def Resolved (k : Consts) (f relEps relMu sigma width : ℝ) (segments order : Nat) : Prop :=
  (∃ l, IsWavelength k f relEps relMu l ∧ 20 * (width / segments) ≤ order * l) ∧
  (0 < sigma → ∃ d, IsSkinDepth k f relMu sigma d ∧ 2 * (width / segments) ≤ d)

/-- Segments of length `dx` are too long: a wavelength does not hold `⌈20 / order⌉` of them or a skin depth does not hold
two. -/
def TooLong (k : Consts) (f relEps relMu sigma dx : ℝ) (order : Nat) : Prop :=
  (∃ l, IsWavelength k f relEps relMu l ∧ l < (⌈(20 : ℝ) / order⌉ : Int) * dx) ∨
  (0 < sigma ∧ ∃ d, IsSkinDepth k f relMu sigma d ∧ d < 2 * dx)

/-- The condition written at one end: absorbing and off when nothing is written. -/
def endOf (s : Option String) : Bool × Dgtd.Config.Cond :=
  match s with
  | none => (false, .sma)
  | some w =>
    if w = "PEC" then (true, .pec) else if w = "PMC" then (true, .pmc) else (true, .sma)

/-- Keywords accepted at an end. -/
def EndWord (s : Option String) : Prop := ∀ w, s = some w → w = "PEC" ∨ w = "PMC" ∨ w = "SMA"

end

end Dgtd.Layer.Spec
