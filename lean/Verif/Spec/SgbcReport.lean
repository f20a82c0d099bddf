/-
Specification: which thin layers are resolved, and which messages say so.
-/
import Verif.Model.SgbcReport

namespace Dgtd.SgbcReport.Spec
open Dgtd.Sgbc (Layer)
open Dgtd.Config (Material)
open Dgtd.Layer (Consts)

noncomputable section

/-- Skin depth of a conductor at the frequency `f` (SI units). -/
def skinDepth (f mu sigma : ℝ) : ℝ := 1 / √(Real.pi * f * mu * sigma)

/-- The segments of the layer are shorter than the skin depth at the frequency `f`.  The solver keeps relative permeabilities and conductivities
times the impedance of vacuum. -/
def Resolved (k : Consts) (l : Layer ℝ (Material ℝ)) (f : ℝ) : Prop :=
  l.width / l.segs < skinDepth f (l.material.mu * k.mu0) (l.material.sigma / k.Z0)

/-- A conducting layer with a thickness, segments and a permeability. -/
structure Conductor (l : Layer ℝ (Material ℝ)) : Prop where
  width : 0 < l.width
  segs : 0 < l.segs
  mu : 0 < l.material.mu
  sigma : 0 < l.material.sigma

/-- The verdict a layer deserves. -/
def Deserves (k : Consts) (l : Layer ℝ (Material ℝ)) : Verdict → Prop
  | .excellent => Resolved k l (10 ^ 10)
  | .info => Resolved k l (10 ^ 9) ∧ ¬ Resolved k l (10 ^ 10)
  | .warning => Resolved k l (10 ^ 6) ∧ ¬ Resolved k l (10 ^ 9)
  | .severe => ¬ Resolved k l (10 ^ 6)

/-- The messages on layers. -/
def onLayers (out : List Line) : List (Nat × Verdict) := out.filterMap fun x => match x with
  | .layer i v => some (i, v)
  | _ => none

/-- The messages on steps: `true` for a step longer than recommended. -/
def onSteps (out : List Line) : List Bool := out.filterMap fun x => match x with
  | .coarse _ _ => some true
  | .ok _ _ => some false
  | _ => none

end

end Dgtd.SgbcReport.Spec
