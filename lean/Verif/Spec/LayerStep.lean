/-
Vocabulary for C191: what a step of the whole solver does to a thin layer.
-/
import Verif.Model.SimLayer
import Verif.Spec.SgbcEvol

namespace Dgtd.LayerStep.Spec
open Dgtd.SgbcEvol Dgtd.SgbcEvol.Spec Dgtd.Sgbc

variable {σ : Type}

/-- A layer without fields to speak of, between outer fields `y` without fields to speak of: both norms are below `1e-8`. -/
def Quiet (Y : Sys σ ℝ) (y : Nat → ℝ) (st : St ℝ) : Prop :=
  normSq (6 * (Y.layers st.tag).n) st.fields < 1 / 10 ^ 16 ∧ ∃ q, ifaceNormSq Y.ndofs y st.pair = some q ∧ q < 1 / 10 ^ 16

/-- The layer `st` becomes `st'` in a step from `t` to `t + dt` that takes the outer fields from `x` to `y`: starting from its fields before the
step, it goes once through the sub-steps of that interval; before each, its ghost nodes get the outer fields, in the frame of its face,
interpolated between their values before and after the step; in each, its inner integrator `p` advances it. -/
def Advanced (Y : Sys σ ℝ) (p : Int → (Nat → ℝ) → ℝ → ℝ → Option (Nat → ℝ)) (x y : Nat → ℝ) (t dt : ℝ) (st st' : St ℝ) : Prop :=
  st'.tag = st.tag ∧ st'.pair = st.pair ∧ st'.rot = st.rot ∧
    ∃ steps old new prev prev', subSteps t dt (Y.layers st.tag).sub = some steps ∧
      ghostValues Y.ndofs x st.rot st.pair prev = some old ∧ ghostValues Y.ndofs y st.rot st.pair prev' = some new ∧
      steps.foldlM (fun u s => (updateInterpolated (Y.layers st.tag).n (Y.layers st.tag).G s.alpha st.pair old new u).bind fun a =>
        match solveStep s.start s.len with
        | none => some a
        | some (t, d) => p st.tag a t d) st.fields = some st'.fields

end Dgtd.LayerStep.Spec
