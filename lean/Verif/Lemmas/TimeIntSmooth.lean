/-
Exact solutions with smooth sources: they exist, are unique, and have bounded derivatives over a finite time.
-/
import Verif.Lemmas.TimeIntDrivenStep
import Mathlib.Analysis.SpecialFunctions.Exponential
import Mathlib.Analysis.Calculus.IteratedDeriv.Defs
import Mathlib.MeasureTheory.Integral.IntervalIntegral.FundThmCalculus

set_option linter.unusedSectionVars false

namespace Dgtd.TimeInt

open Implicit Spec

section
variable {V : Type} [NormedAddCommGroup V] [NormedSpace ℝ V] [FiniteDimensional ℝ V]

/-- The derivatives of a solution, in terms of those of the sources. -/
noncomputable def derivs (A : V →ₗ[ℝ] V) (src u : ℝ → V) : Nat → ℝ → V
  | 0 => u
  | n + 1 => fun t => A (derivs A src u n t) + iteratedDeriv n src t

theorem derivs_smooth {k : Nat} {A : V →ₗ[ℝ] V} {src u : ℝ → V} (hs : ContDiff ℝ k src)
    (hu : ∀ t, HasDerivAt u (A (u t) + src t) t) : Smooth (k + 1) (derivs A src u) := by
  intro n
  induction n with
  | zero =>
    intro _ t
    simp only [derivs, iteratedDeriv_zero]
    exact hu t
  | succ n ih =>
    intro hn t
    have h1 : HasDerivAt (fun s => A (derivs A src u n s)) (A (derivs A src u (n + 1) t)) t :=
      (LinearMap.toContinuousLinearMap A).hasFDerivAt.comp_hasDerivAt t (ih (by omega) t)
    have h2 : HasDerivAt (iteratedDeriv n src) (iteratedDeriv (n + 1) src t) t := by
      rw [iteratedDeriv_succ]
      have : ((n : ℕ) : WithTop ℕ∞) < (k : ℕ) := by exact_mod_cast (by omega : n < k)
      exact (hs.differentiable_iteratedDeriv n this t).hasDerivAt
    exact h1.add h2

theorem derivs_driven {k : Nat} {A : V →ₗ[ℝ] V} {src u : ℝ → V} (hs : ContDiff ℝ k src)
    (hu : ∀ t, HasDerivAt u (A (u t) + src t) t) : Driven k A src (derivs A src u) where
  smooth := derivs_smooth hs hu
  eq := by
    intro s
    simp only [derivs, iteratedDeriv_zero]

theorem derivs_continuous {k : Nat} {A : V →ₗ[ℝ] V} {src u : ℝ → V} (hs : ContDiff ℝ k src)
    (hu : ∀ t, HasDerivAt u (A (u t) + src t) t) (n : Nat) (hn : n ≤ k + 1) : Continuous (derivs A src u n) := by
  rcases Nat.lt_or_eq_of_le hn with h | h
  · exact continuous_iff_continuousAt.2 fun t => (derivs_smooth hs hu n h t).continuousAt
  · subst h
    have h1 : Continuous (derivs A src u k) :=
      continuous_iff_continuousAt.2 fun t => (derivs_smooth hs hu k (by omega) t).continuousAt
    have h2 := (LinearMap.toContinuousLinearMap A).continuous.comp h1
    exact h2.add (hs.continuous_iteratedDeriv k le_rfl)

theorem nrm_continuous (B : V →ₗ[ℝ] V →ₗ[ℝ] ℝ) : Continuous (nrm B) := by
  have h : Continuous fun x : V => B.toContinuousBilinearMap x x :=
    B.toContinuousBilinearMap.continuous.clm_apply continuous_id
  exact Real.continuous_sqrt.comp h

/-- Bounds over a finite time. -/
theorem derivs_bounded {k : Nat} (B : V →ₗ[ℝ] V →ₗ[ℝ] ℝ) {A : V →ₗ[ℝ] V} {src u : ℝ → V} (hs : ContDiff ℝ k src)
    (hu : ∀ t, HasDerivAt u (A (u t) + src t) t) (a b : ℝ) : ∃ K, 0 ≤ K ∧ ∀ j n, j + n = k + 1 → ∀ s, a ≤ s → s ≤ b →
      nrm B ((A ^ j) (derivs A src u n s)) ≤ K := by
  have one : ∀ n, ∃ K, 0 ≤ K ∧ ∀ j, j + n = k + 1 → ∀ s, a ≤ s → s ≤ b → nrm B ((A ^ j) (derivs A src u n s)) ≤ K := by
    intro n
    by_cases hn : n ≤ k + 1
    · have hc : Continuous fun s => nrm B ((A ^ (k + 1 - n)) (derivs A src u n s)) :=
        (nrm_continuous B).comp ((LinearMap.toContinuousLinearMap (A ^ (k + 1 - n))).continuous.comp (derivs_continuous hs hu n hn))
      obtain ⟨K, hK⟩ := (isCompact_Icc (a := a) (b := b)).bddAbove_image hc.continuousOn
      refine ⟨max K 0, le_max_right _ _, ?_⟩
      intro j hj s h1 h2
      obtain rfl : j = k + 1 - n := by omega
      exact (hK ⟨s, ⟨h1, h2⟩, rfl⟩).trans (le_max_left _ _)
    · exact ⟨0, le_rfl, fun j hj => absurd hj (by omega)⟩
  choose K h0 hK using one
  refine ⟨∑ n ∈ Finset.range (k + 2), K n, Finset.sum_nonneg fun n _ => h0 n, ?_⟩
  intro j n hj s h1 h2
  exact (hK n j hj s h1 h2).trans (Finset.single_le_sum (fun n _ => h0 n) (Finset.mem_range.2 (by omega)))

/-- Existence. -/
theorem exists_solution (A : V →ₗ[ℝ] V) {src : ℝ → V} (hs : Continuous src) (t0 : ℝ) (x : V) :
    ∃ u : ℝ → V, u t0 = x ∧ ∀ t, HasDerivAt u (A (u t) + src t) t := by
  have : CompleteSpace V := FiniteDimensional.complete ℝ V
  letI : NormedAlgebra ℚ (V →L[ℝ] V) := NormedAlgebra.restrictScalars ℚ ℝ (V →L[ℝ] V)
  obtain ⟨L, hL⟩ : ∃ L : V →L[ℝ] V, L = LinearMap.toContinuousLinearMap A := ⟨_, rfl⟩
  have hLA : ∀ y, L y = A y := fun y => by rw [hL]; rfl
  have d1 : ∀ t : ℝ, HasDerivAt (fun s : ℝ => NormedSpace.exp (s • L)) (L * NormedSpace.exp (t • L)) t :=
    fun t => hasDerivAt_exp_smul_const' L t
  have c1 : Continuous fun s : ℝ => NormedSpace.exp (s • L) :=
    continuous_iff_continuousAt.2 fun t => (d1 t).continuousAt
  have c2 : Continuous fun s : ℝ => NormedSpace.exp ((t0 - s) • L) (src s) :=
    (c1.comp (continuous_const.sub continuous_id)).clm_apply hs
  refine ⟨fun t => NormedSpace.exp ((t - t0) • L) (x + ∫ s in t0..t, NormedSpace.exp ((t0 - s) • L) (src s)), ?_, ?_⟩
  · simp
  · intro t
    have d2 : HasDerivAt (fun s : ℝ => NormedSpace.exp ((s - t0) • L)) (L * NormedSpace.exp ((t - t0) • L)) t :=
      (d1 (t - t0)).comp_sub_const t t0
    have d3 := (c2.integral_hasStrictDerivAt t0 t).hasDerivAt.const_add x
    have d4 := d2.clm_apply d3
    refine d4.congr_deriv ?_
    rw [ContinuousLinearMap.mul_apply, hLA]
    congr 1
    rw [← ContinuousLinearMap.mul_apply, ← NormedSpace.exp_add_of_commute]
    · rw [← add_smul, show t - t0 + (t0 - t) = 0 by ring, zero_smul, NormedSpace.exp_zero, one_apply_eq_self]
    · exact ((Commute.refl L).smul_left _).smul_right _

/-- Uniqueness, from any time on. -/
theorem solution_unique {B : V →ₗ[ℝ] V →ₗ[ℝ] ℝ} {A : V →ₗ[ℝ] V} (hd : Diss B A) {src u w : ℝ → V}
    (hu : ∀ t, HasDerivAt u (A (u t) + src t) t) (hw : ∀ t, HasDerivAt w (A (w t) + src t) t) {t s : ℝ} (hts : t ≤ s) :
    nrm B (u s - w s) ≤ nrm B (u t - w t) := by
  have he : Exact A fun t => u t - w t := by
    intro t
    refine ((hu t).sub (hw t)).congr_deriv ?_
    rw [map_sub]
    abel
  exact exact_decays hd he hts

end

end Dgtd.TimeInt
