/-
Exact solutions of `u' = A u` with `A` dissipative: Taylor remainder in the form.
-/
import Verif.Lemmas.TimeIntErr
import Mathlib.Topology.Algebra.Module.FiniteDimensionBilinear
import Mathlib.Analysis.Calculus.Deriv.MeanValue
import Mathlib.Analysis.Calculus.Deriv.Mul
import Mathlib.Analysis.Calculus.Deriv.Add
import Mathlib.Analysis.Calculus.Deriv.Pow
import Mathlib.Analysis.Calculus.Deriv.Shift
import Mathlib.Analysis.Calculus.FDeriv.Bilinear
import Mathlib.Analysis.Normed.Module.FiniteDimension

set_option linter.unusedSectionVars false

namespace Dgtd.TimeInt

variable {V : Type} [NormedAddCommGroup V] [NormedSpace ℝ V] [FiniteDimensional ℝ V]

/-- The first `n` terms of the Taylor series of the exact solution after a time `h`. -/
noncomputable def taylor (A : V →ₗ[ℝ] V) (n : Nat) (h : ℝ) (x : V) : V :=
  ∑ k ∈ Finset.range n, (h ^ k / (k.factorial : ℝ)) • (A ^ k) x

/-- `u` solves `u' = A u`. -/
def Exact (A : V →ₗ[ℝ] V) (u : ℝ → V) : Prop := ∀ t, HasDerivAt u (A (u t)) t

theorem Exact.comp {A : V →ₗ[ℝ] V} {u : ℝ → V} (h : Exact A u) : Exact A (fun t => A (u t)) := by
  intro t
  exact (LinearMap.toContinuousLinearMap A).hasFDerivAt.comp_hasDerivAt t (h t)

theorem exact_decays {B : V →ₗ[ℝ] V →ₗ[ℝ] ℝ} {A : V →ₗ[ℝ] V} (h : Diss B A) {u : ℝ → V} (hu : Exact A u) :
    Antitone fun t => nrm B (u t) := by
  have hd : ∀ t, HasDerivAt (fun s => B (u s) (u s)) (B (A (u t)) (u t) + B (u t) (A (u t))) t := by
    intro t
    have h1 : HasDerivAt (fun s => B.toContinuousBilinearMap (u s)) (B.toContinuousBilinearMap (A (u t))) t :=
      (B.toContinuousBilinearMap).hasFDerivAt.comp_hasDerivAt t (hu t)
    exact h1.clm_apply (hu t)
  have : Antitone fun t => B (u t) (u t) := by
    apply antitone_of_deriv_nonpos
    · exact fun t => (hd t).differentiableAt
    · intro t
      rw [(hd t).deriv, h.symm (A (u t)) (u t)]
      linarith [h.diss (u t)]
  intro s t hst
  exact (nrm_le_iff h.nonneg).2 (this hst)

theorem taylor_succ_deriv (A : V →ₗ[ℝ] V) (φ : V →ₗ[ℝ] ℝ) (n : Nat) (x : V) (h : ℝ) :
    HasDerivAt (fun s => φ (taylor A (n + 1) s x)) (φ (taylor A n h (A x))) h := by
  have e : (fun s => φ (taylor A (n + 1) s x)) =
      fun s => (∑ k ∈ Finset.range n, s ^ (k + 1) / ((k + 1).factorial : ℝ) * φ ((A ^ (k + 1)) x)) + φ x := by
    funext s
    unfold taylor
    rw [Finset.sum_range_succ', map_add, map_sum]
    simp
  have e' : φ (taylor A n h (A x)) = ∑ k ∈ Finset.range n, h ^ k / (k.factorial : ℝ) * φ ((A ^ (k + 1)) x) := by
    unfold taylor
    rw [map_sum]
    apply Finset.sum_congr rfl
    intro k _
    rw [map_smul, smul_eq_mul, pow_succ, Module.End.mul_apply]
  rw [e, e']
  apply HasDerivAt.add_const
  apply HasDerivAt.fun_sum
  intro k _
  apply HasDerivAt.mul_const
  have := (hasDerivAt_pow (k + 1) h).div_const ((k + 1).factorial : ℝ)
  convert this using 1
  rw [Nat.factorial_succ]
  push_cast
  have : (k.factorial : ℝ) ≠ 0 := by exact_mod_cast k.factorial_ne_zero
  have : (k : ℝ) + 1 ≠ 0 := by positivity
  field_simp

/-- Remainder of the Taylor polynomial. -/
theorem exact_taylor {B : V →ₗ[ℝ] V →ₗ[ℝ] ℝ} {A : V →ₗ[ℝ] V} (hA : Diss B A) (n : Nat) :
    ∀ {u : ℝ → V}, Exact A u → ∀ t h : ℝ, 0 ≤ h →
      nrm B (u (t + h) - taylor A n h (u t)) ≤ h ^ n / (n.factorial : ℝ) * nrm B ((A ^ n) (u t)) := by
  induction n with
  | zero =>
    intro u hu t h hh
    simp only [taylor, Finset.range_zero, Finset.sum_empty, sub_zero, pow_zero, Nat.factorial_zero, Nat.cast_one,
      div_one, one_mul, Module.End.one_apply]
    exact exact_decays hA hu (by linarith)
  | succ n ih =>
    intro u hu t h hh
    obtain ⟨w, hw⟩ : ∃ w, w = u (t + h) - taylor A (n + 1) h (u t) := ⟨_, rfl⟩
    rw [← hw]
    obtain ⟨C, hC⟩ : ∃ C, C = nrm B ((A ^ (n + 1)) (u t)) := ⟨_, rfl⟩
    rw [← hC]
    obtain ⟨φ, hφ⟩ : ∃ φ : ℝ → ℝ, φ = fun s => s ^ (n + 1) / ((n + 1).factorial : ℝ) * (nrm B w * C) -
      B w (u (t + s) - taylor A (n + 1) s (u t)) := ⟨_, rfl⟩
    have hder : ∀ s, HasDerivAt φ (s ^ n / (n.factorial : ℝ) * (nrm B w * C) -
        B w (A (u (t + s)) - taylor A n s (A (u t)))) s := by
      intro s
      rw [hφ]
      apply HasDerivAt.sub
      · apply HasDerivAt.mul_const
        have := (hasDerivAt_pow (n + 1) s).div_const ((n + 1).factorial : ℝ)
        convert this using 1
        rw [Nat.factorial_succ]
        push_cast
        have : (n.factorial : ℝ) ≠ 0 := by exact_mod_cast n.factorial_ne_zero
        have : (n : ℝ) + 1 ≠ 0 := by positivity
        field_simp
      · have h1 : HasDerivAt (fun s => B w (u (t + s))) (B w (A (u (t + s)))) s := by
          have h2 : HasDerivAt (fun s => u (t + s)) (A (u (t + s))) s := (hu (t + s)).comp_const_add t s
          exact (LinearMap.toContinuousLinearMap (B w)).hasFDerivAt.comp_hasDerivAt s h2
        have h3 := h1.sub (taylor_succ_deriv A (B w) n (u t) s)
        simp only [map_sub]
        exact h3
    have hmono : MonotoneOn φ (Set.Icc 0 h) := by
      apply monotoneOn_of_deriv_nonneg (convex_Icc 0 h)
      · exact fun s _ => (hder s).continuousAt.continuousWithinAt
      · exact fun s _ => (hder s).differentiableAt.differentiableWithinAt
      · intro s hs
        rw [interior_Icc] at hs
        rw [(hder s).deriv]
        have b1 := form_le hA.symm hA.nonneg w (A (u (t + s)) - taylor A n s (A (u t)))
        have b2 := ih hu.comp t s hs.1.le
        rw [← Module.End.mul_apply, ← pow_succ, ← hC] at b2
        have b3 := mul_le_mul_of_nonneg_left b2 (nrm_nonneg B w)
        linarith
    have h0 : φ 0 = 0 := by
      rw [hφ]
      have : taylor A (n + 1) 0 (u t) = u t := by
        unfold taylor
        rw [Finset.sum_range_succ']
        simp
      simp [this]
    have h1 := hmono (Set.left_mem_Icc.2 hh) (Set.right_mem_Icc.2 hh) hh
    rw [h0, hφ] at h1
    simp only [← hw] at h1
    rw [← nrm_sq hA.nonneg] at h1
    by_cases hz : nrm B w = 0
    · rw [hz, hC]
      have := nrm_nonneg B ((A ^ (n + 1)) (u t))
      positivity
    · have hp : 0 < nrm B w := lt_of_le_of_ne (nrm_nonneg B w) (Ne.symm hz)
      have : 0 ≤ nrm B w * (h ^ (n + 1) / ((n + 1).factorial : ℝ) * C - nrm B w) := by nlinarith
      linarith [(mul_nonneg_iff_of_pos_left hp).1 this]

/-- Powers of the operator along an exact solution do not grow either. -/
theorem exact_pow_decays {B : V →ₗ[ℝ] V →ₗ[ℝ] ℝ} {A : V →ₗ[ℝ] V} (h : Diss B A) (n : Nat) :
    ∀ {u : ℝ → V}, Exact A u → Antitone fun t => nrm B ((A ^ n) (u t)) := by
  induction n with
  | zero => intro u hu; simpa using exact_decays h hu
  | succ n ih =>
    intro u hu
    have := ih hu.comp
    simpa only [pow_succ, Module.End.mul_apply] using this

end Dgtd.TimeInt
