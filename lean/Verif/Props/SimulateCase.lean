/-
C151 and C152: a mode of a cavity, two triangles, the automatic time step and a probe at a point meet the hypotheses.
-/
import Verif.Props.Pointwise
import Verif.Props.UniformCase
import Verif.Props.CflCase

namespace Dgtd.Galerkin.Case
open MvPolynomial Spec Dgtd.Op Dgtd.Op.Spec
open Dgtd.Implicit Dgtd.TimeInt Dgtd.TimeInt.Spec Dgtd.TimeStep.Spec
open Dgtd.Galerkin Dgtd.Simulate Dgtd.Simulate.Spec

/-- A probe of the vertical electric field in the middle of the lower triangle, ten times in the simulation. -/
noncomputable def middle : Probe (Slot (Fin 3 ⊕ Fin 3) → ℝ) ℝ where
  steps := 0
  saves := 10
  owned := true
  read v := eval (fun _ => 1 / 3) (onElem lower (unflat v .E 2))
  recs := []

lemma middle_usable : Simulate.Spec.Usable [middle] := by
  intro p hp
  rw [List.mem_singleton] at hp
  subst hp
  right; norm_num [middle]

example : ∃ K c B, 0 ≤ K ∧ 0 < c ∧ ∀ cfl, 0 < cfl → cfl ≤ c → ∃ P A dt, cavity.fem vacuum = .ok P ∧
    (∀ u : State (Fin 3 ⊕ Fin 3) ℝ, A.mulVec (flat u) = flat (globalMult P.prob u)) ∧ 0 < dt ∧
    ∀ (q : Sdirk ℝ) (x : State (Fin 3 ⊕ Fin 3) ℝ), Sampled cavity corner3 mode 0 x →
      ∃ (s0 s : Sim (Slot (Fin 3 ⊕ Fin 3) → ℝ) (Cache ℝ (Slot (Fin 3 ⊕ Fin 3))) ℝ) (y : Nat → State (Fin 3 ⊕ Fin 3) ℝ),
        construct (fun _ => [-1, 1]) seen ⟨0, 10, cfl, 0, .global, 1⟩ (flat x) fresh [middle] = .ok (dt, .rk4, s0) ∧
        (∀ fuel, TimeLoop.Spec.stepCount dt 10 ≤ fuel → Simulate.run q .rk4 (globalTdo A fun _ => 0) dt 10 fuel s0 = .done s) ∧
        Finished dt 10 [middle] (fun k => flat (y k)) s ∧
        Right cavity mode (fun t => K * (1 + t) * (1 + √(volume cavity)) * (B * ((1 ^ 1 + 1 ^ 4) / √(1 ^ (1 + 1))))) s := by
  have hr : FirstGap (fun _ => [-1, 1]) 1 2 := ⟨by norm_num, -1, 1, [], rfl, by norm_num⟩
  obtain ⟨K, c, hK, hc, h⟩ := C152_automatic 1 1 2 1 1 1 1 one_pos le_rfl zero_le_one zero_le_one _ 2 hr
  obtain ⟨B, r, b⟩ := cavity_all 10 5
  refine ⟨K, c, B, hK, hc, fun cfl h0 h1 => ?_⟩
  obtain ⟨P, A, dt, hP, hA, hdt, hrun⟩ := h _ cavity vacuum 1 B mode corner3 seen ⟨0, 10, cfl, 0, .global, 1⟩ rfl r b
    (by simp [cavity, pairSetup]) cavity_describes (fun h => absurd h (by norm_num [seen])) cavity_usable ⟨by norm_num, by norm_num, h0⟩ rfl rfl
    rfl h1 (by norm_num) rfl
  exact ⟨P, A, dt, hP, hA, hdt, fun q x hx => hrun q x [middle] hx middle_usable (by simp [middle])⟩

/-- The probe of the example is one the theorem speaks about. -/
example : middle.read = Simulate.Spec.point ⟨lower, 1, midpoints, midpoints⟩ (fun _ => 1 / 3) .E 2 := rfl

end Dgtd.Galerkin.Case
