/-
C148: the impedance that is fitted is that of the layer.
-/
import Verif.Model.PoleSolve
import Mathlib.Analysis.SpecialFunctions.Trigonometric.Deriv
import Mathlib.Analysis.SpecialFunctions.Trigonometric.DerivHyp
import Mathlib.Analysis.SpecialFunctions.Trigonometric.Bounds
import Mathlib.Analysis.Calculus.Deriv.Slope
import Mathlib.Tactic.LinearCombination
import Mathlib.Tactic.FieldSimp

set_option linter.unusedSectionVars false

namespace Dgtd.PoleFit
open Complex Filter Topology

/-- A layer of a conductor. -/
structure Conductor (l : Layer ℝ) : Prop where
  eps : 0 < l.eps
  mu : 0 < l.mu
  sigma : 0 < l.sigma
  width : 0 < l.width

/-- Series impedance of a unit of length at an angular frequency, `jωμ`; the permeability of vacuum is `4π·10⁻⁷`. -/
noncomputable def series (l : Layer ℝ) (w : ℝ) : ℂ := I * w * (4 * Real.pi * 1e-7 * l.mu : ℝ)

/-- Shunt admittance of a unit of length at an angular frequency, `σ + jωε`, with the permittivity of vacuum. -/
noncomputable def shunt (l : Layer ℝ) (w : ℝ) : ℂ := l.sigma + I * w * (8.8541878188e-12 * l.eps : ℝ)

lemma series_eq (l : Layer ℝ) (w : ℝ) : series l w = I * w * (mu0 * l.mu : ℝ) := rfl
lemma shunt_eq (l : Layer ℝ) (w : ℝ) : shunt l w = l.sigma + I * w * (eps0 * l.eps : ℝ) := rfl

lemma eps0_pos : 0 < eps0 := by unfold eps0; norm_num
lemma mu0_pos : 0 < mu0 := by unfold mu0; positivity

lemma sqrt_sq (z : ℂ) : Complex.sqrt z ^ 2 = z := by
  rw [Complex.sqrt, ← Complex.cpow_nat_mul]
  simp

lemma sqrt_re {z : ℂ} (h : 0 < z.re) : 0 < (Complex.sqrt z).re := by
  rw [Complex.sqrt, Complex.cpow_inv_two_re]
  refine Real.sqrt_pos.2 ?_
  have := norm_nonneg z
  linarith

lemma eq_of_sq {a b : ℂ} (h : a ^ 2 = b ^ 2) (ha : 0 < a.re) (hb : 0 < b.re) : a = b := by
  rcases sq_eq_sq_iff_eq_or_eq_neg.1 h with h | h
  · exact h
  · rw [h, neg_re] at ha
    linarith

variable {l : Layer ℝ} {f : ℝ}

lemma angular_pos (hf : 0 < f) : 0 < angular f := by unfold angular; positivity

lemma epsC_shunt (hf : 0 < f) : I * angular f * epsC l f = shunt l (angular f) := by
  have hw : ((angular f : ℝ) : ℂ) ≠ 0 := ofReal_ne_zero.2 (angular_pos hf).ne'
  rw [epsC, shunt_eq]
  push_cast
  field_simp
  linear_combination -(l.sigma : ℂ) * I_sq

lemma gamma_sq (hf : 0 < f) : gammaC l f ^ 2 = series l (angular f) * shunt l (angular f) := by
  rw [← epsC_shunt hf, gammaC, mul_pow, sqrt_sq, series_eq, muC]
  ring

lemma epsC_re (hl : Conductor l) : 0 < (epsC l f).re := by
  have := mul_pos eps0_pos hl.eps
  simpa [epsC] using this

lemma epsC_im (hl : Conductor l) (hf : 0 < f) : (epsC l f).im < 0 := by
  have := div_pos hl.sigma (angular_pos hf)
  simpa [epsC] using this

lemma muC_mul (z : ℂ) : (muC l * z).re = mu0 * l.mu * z.re ∧ (muC l * z).im = mu0 * l.mu * z.im := by
  simp [muC]

lemma gamma_pos (hl : Conductor l) (hf : 0 < f) : 0 < (gammaC l f).re ∧ 0 < (gammaC l f).im := by
  have hm := mul_pos mu0_pos hl.mu
  have h1 : 0 < (muC l * epsC l f).re := by rw [(muC_mul _).1]; exact mul_pos hm (epsC_re hl)
  have h2 : (muC l * epsC l f).im < 0 := by rw [(muC_mul _).2]; exact mul_neg_of_pos_of_neg hm (epsC_im hl hf)
  have h3 := sqrt_re h1
  have h4 : (Complex.sqrt (muC l * epsC l f)).im < 0 := by
    rw [Complex.sqrt, Complex.cpow_inv_two_im_eq_neg_sqrt h2, neg_lt_zero]
    refine Real.sqrt_pos.2 ?_
    have := Complex.abs_re_lt_norm.2 h2.ne
    have := (le_abs_self _).trans_lt this
    linarith
  have hw := angular_pos hf
  unfold gammaC
  constructor
  · have e : (I * (angular f : ℂ) * Complex.sqrt (muC l * epsC l f)).re = -(angular f * (Complex.sqrt (muC l * epsC l f)).im) := by
      simp [mul_re, mul_im]
    rw [e]
    have := mul_neg_of_pos_of_neg hw h4
    linarith
  · have e : (I * (angular f : ℂ) * Complex.sqrt (muC l * epsC l f)).im = angular f * (Complex.sqrt (muC l * epsC l f)).re := by
      simp [mul_re, mul_im]
    rw [e]
    exact mul_pos hw h3

lemma gamma_ne (hl : Conductor l) (hf : 0 < f) : gammaC l f ≠ 0 := fun h => by
  have := (gamma_pos hl hf).1
  rw [h] at this
  simp at this

lemma shunt_ne (hl : Conductor l) (w : ℝ) : shunt l w ≠ 0 := fun h => by
  have := congrArg re h
  simp [shunt] at this
  exact hl.sigma.ne' this

/-- The root of the quotient is the quotient of the roots. -/
lemma eta_eq (hl : Conductor l) (hf : 0 < f) : Complex.sqrt (muC l / epsC l f) = series l (angular f) / gammaC l f := by
  have hm := mul_pos mu0_pos hl.mu
  have h1 : 0 < (muC l * epsC l f).re := by rw [(muC_mul _).1]; exact mul_pos hm (epsC_re hl)
  have hq := sqrt_re h1
  have he : epsC l f ≠ 0 := fun h => by have := epsC_re (f := f) hl; rw [h] at this; simp at this
  have hq0 : Complex.sqrt (muC l * epsC l f) ≠ 0 := fun h => by rw [h] at hq; simp at hq
  have hw : (angular f : ℂ) ≠ 0 := ofReal_ne_zero.2 (angular_pos hf).ne'
  have e : series l (angular f) / gammaC l f = muC l / Complex.sqrt (muC l * epsC l f) := by
    rw [series_eq, gammaC, muC]
    have := I_ne_zero
    field_simp
  rw [e]
  have hmu : muC l ≠ 0 := ofReal_ne_zero.2 hm.ne'
  refine eq_of_sq ?_ ?_ ?_
  · rw [sqrt_sq, div_pow, sqrt_sq]
    field_simp
  · refine sqrt_re ?_
    rw [div_eq_mul_inv, (muC_mul _).1, Complex.inv_re]
    exact mul_pos hm (div_pos (epsC_re hl) (normSq_pos.2 he))
  · rw [div_eq_mul_inv, (muC_mul _).1, Complex.inv_re]
    exact mul_pos hm (div_pos hq (normSq_pos.2 hq0))

/-- The impedance is that of a line with the layer's series impedance and shunt admittance, of the layer's width, open at its end; the waves in it are
damped. -/
theorem C148_formula (hl : Conductor l) (hf : 0 < f) : ∃ γ : ℂ, γ ^ 2 = series l (2 * Real.pi * f) * shunt l (2 * Real.pi * f) ∧ 0 < γ.re ∧ 0 < γ.im ∧
    target l f = γ / (shunt l (2 * Real.pi * f) * Complex.tanh (γ * l.width)) := by
  refine ⟨gammaC l f, gamma_sq hf, (gamma_pos hl hf).1, (gamma_pos hl hf).2, ?_⟩
  unfold target
  rw [eta_eq hl hf]
  have h := gamma_sq (l := l) hf
  have h1 := gamma_ne hl hf
  have h2 := shunt_ne hl (angular f)
  change _ = gammaC l f / (shunt l (angular f) * _)
  rw [← div_div]
  congr 1
  rw [div_eq_div_iff h1 h2, ← h]
  ring

lemma cosh_conj_sinh (a b : ℝ) : Complex.cosh (a + b * I) * (starRingEnd ℂ) (Complex.sinh (a + b * I)) =
    ((Real.sinh (2 * a) / 2 : ℝ) : ℂ) - ((Real.sin (2 * b) / 2 : ℝ) : ℂ) * I := by
  rw [Complex.cosh_add, Complex.sinh_add, Complex.cosh_mul_I, Complex.sinh_mul_I, Real.sinh_two_mul, Real.sin_two_mul]
  simp only [map_add, map_mul, ← ofReal_cosh, ← ofReal_sinh, ← ofReal_cos, ← ofReal_sin, conj_ofReal, conj_I]
  push_cast
  have h1 : (Complex.cosh a) ^ 2 - Complex.sinh a ^ 2 = 1 := Complex.cosh_sq_sub_sinh_sq _
  have h2 : Complex.sin b ^ 2 + Complex.cos b ^ 2 = 1 := Complex.sin_sq_add_cos_sq _
  have h3 := I_sq
  linear_combination (-(Complex.sin b * Complex.cos b * I)) * h1 + (Complex.cosh a * Complex.sinh a) * h2 -
    (Complex.cosh a * Complex.sinh a * Complex.sin b ^ 2) * h3

/-- The layer takes energy, never gives any: its impedance has a positive real part at all frequencies. -/
theorem C148_passive (hl : Conductor l) (hf : 0 < f) : 0 < (target l f).re := by
  obtain ⟨γ, h1, h2, h3, -⟩ := C148_formula hl hf
  have hg := gamma_pos hl hf
  have hg0 := gamma_ne hl hf
  set γ := gammaC l f with hγ
  have hd := hl.width
  have ht : target l f = series l (angular f) * (Complex.cosh (γ * l.width) * (starRingEnd ℂ) (γ * Complex.sinh (γ * l.width))) /
      (normSq (γ * Complex.sinh (γ * l.width)) : ℂ) := by
    unfold target
    rw [eta_eq hl hf, ← hγ, Complex.tanh_eq_sinh_div_cosh, ← mul_conj]
    by_cases hs : Complex.sinh (γ * l.width) = 0
    · simp [hs]
    · have : (starRingEnd ℂ) (γ * Complex.sinh (γ * l.width)) ≠ 0 := by
        rw [Ne, map_eq_zero]
        exact mul_ne_zero hg0 hs
      field_simp
  have e : γ * (l.width : ℂ) = ((γ.re * l.width : ℝ) : ℂ) + ((γ.im * l.width : ℝ) : ℂ) * I := by
    conv_lhs => rw [← re_add_im γ]
    push_cast
    ring
  have hn : Complex.sinh (γ * l.width) ≠ 0 := by
    intro h0
    have := cosh_conj_sinh (γ.re * l.width) (γ.im * l.width)
    rw [← e, h0, map_zero, mul_zero] at this
    have h5 : 0 < Real.sinh (2 * (γ.re * l.width)) := by
      rw [Real.sinh_pos_iff]
      have := mul_pos hg.1 hd
      linarith
    generalize Real.sinh (2 * (γ.re * l.width)) = P at this h5
    generalize Real.sin (2 * (γ.im * l.width)) = Q at this
    have := congrArg re this
    simp at this
    linarith
  have hpos : 0 < γ.re * Real.sin (2 * (γ.im * l.width)) + γ.im * Real.sinh (2 * (γ.re * l.width)) := by
    have a1 : 0 < 2 * (γ.re * l.width) := by have := mul_pos hg.1 hd; linarith
    have a2 : 0 < 2 * (γ.im * l.width) := by have := mul_pos hg.2 hd; linarith
    have b1 : 2 * (γ.re * l.width) < Real.sinh (2 * (γ.re * l.width)) := Real.self_lt_sinh_iff.2 a1
    have b2 : -(2 * (γ.im * l.width)) ≤ Real.sin (2 * (γ.im * l.width)) := by
      have := (abs_le.1 (Real.abs_sin_le_abs (x := 2 * (γ.im * l.width)))).1
      rwa [abs_of_pos a2] at this
    have c1 := mul_lt_mul_of_pos_left b1 hg.2
    have c2 := mul_le_mul_of_nonneg_left b2 hg.1.le
    nlinarith
  have hval : (series l (angular f) * (Complex.cosh (γ * l.width) * (starRingEnd ℂ) (γ * Complex.sinh (γ * l.width)))).re =
      angular f * (mu0 * l.mu) / 2 * (γ.re * Real.sin (2 * (γ.im * l.width)) + γ.im * Real.sinh (2 * (γ.re * l.width))) := by
    rw [map_mul, mul_left_comm (Complex.cosh _), e, cosh_conj_sinh]
    generalize Real.sinh (2 * (γ.re * l.width)) = P
    generalize Real.sin (2 * (γ.im * l.width)) = Q
    simp only [series_eq]
    simp [mul_re, mul_im]
    ring
  rw [ht, div_ofReal_re, hval]
  refine div_pos (mul_pos (div_pos (mul_pos (angular_pos hf) (mul_pos mu0_pos hl.mu)) two_pos) hpos) (normSq_pos.2 (mul_ne_zero hg0 hn))

/-- At low frequencies it is the resistance of a square of the sheet. -/
theorem C148_resistance (hl : Conductor l) : Tendsto (target l) (𝓝[>] 0) (𝓝 ((1 / (l.sigma * l.width) : ℝ) : ℂ)) := by
  have hd : (l.width : ℂ) ≠ 0 := ofReal_ne_zero.2 hl.width.ne'
  have hg : Tendsto (fun f => gammaC l f * l.width) (𝓝[>] 0) (𝓝 0) := by
    have h1 : Tendsto (fun f : ℝ => series l (angular f) * shunt l (angular f)) (𝓝[>] 0) (𝓝 0) := by
      have hc : Continuous fun f : ℝ => series l (angular f) * shunt l (angular f) := by
        unfold series shunt angular
        fun_prop
      have := (hc.tendsto 0).mono_left (nhdsWithin_le_nhds (s := Set.Ioi 0))
      simpa [series, angular] using this
    have h2 : Tendsto (fun f => ‖gammaC l f‖ ^ 2) (𝓝[>] 0) (𝓝 0) := by
      have h3 := h1.norm
      rw [norm_zero] at h3
      refine h3.congr' ?_
      filter_upwards [self_mem_nhdsWithin] with f hf
      rw [← gamma_sq hf, norm_pow]
    have h3 : Tendsto (fun f => ‖gammaC l f‖) (𝓝[>] 0) (𝓝 0) := by
      have := h2.sqrt
      simpa [Real.sqrt_sq (norm_nonneg _)] using this
    have h4 := (tendsto_zero_iff_norm_tendsto_zero.2 h3).mul_const (l.width : ℂ)
    rwa [zero_mul] at h4
  have ht : Tendsto (fun z : ℂ => z / Complex.tanh z) (𝓝[≠] 0) (𝓝 1) := by
    have h1 : HasDerivAt Complex.tanh 1 0 := by
      have h2 := (Complex.hasDerivAt_sinh 0).div (Complex.hasDerivAt_cosh 0) (by simp)
      simp at h2
      refine h2.congr_of_eventuallyEq (Eventually.of_forall fun z => ?_)
      exact Complex.tanh_eq_sinh_div_cosh z
    have h2 := (hasDerivAt_iff_tendsto_slope_zero.1 h1).inv₀ one_ne_zero
    simp only [zero_add, Complex.tanh_zero, sub_zero, smul_eq_mul, mul_inv, inv_inv, inv_one] at h2
    exact h2.congr fun z => by rw [div_eq_mul_inv]
  have hs : Tendsto (fun f : ℝ => shunt l (angular f) * l.width) (𝓝[>] 0) (𝓝 ((l.sigma : ℂ) * l.width)) := by
    have hc : Continuous fun f : ℝ => shunt l (angular f) * l.width := by
      unfold shunt angular
      fun_prop
    have := (hc.tendsto 0).mono_left (nhdsWithin_le_nhds (s := Set.Ioi 0))
    simpa [shunt, angular] using this
  have hg' : Tendsto (fun f => gammaC l f * l.width) (𝓝[>] 0) (𝓝[≠] 0) := by
    refine tendsto_nhdsWithin_iff.2 ⟨hg, ?_⟩
    filter_upwards [self_mem_nhdsWithin] with f hf
    exact mul_ne_zero (gamma_ne hl hf) hd
  have hsd : (l.sigma : ℂ) * l.width ≠ 0 := mul_ne_zero (ofReal_ne_zero.2 hl.sigma.ne') hd
  have h := (ht.comp hg').div hs hsd
  push_cast
  refine h.congr' ?_
  filter_upwards [self_mem_nhdsWithin] with f hf
  have e : target l f = gammaC l f / (shunt l (angular f) * Complex.tanh (gammaC l f * l.width)) := by
    unfold target
    rw [eta_eq hl hf, ← div_div]
    congr 1
    rw [div_eq_div_iff (gamma_ne hl hf) (shunt_ne hl _), ← gamma_sq hf]
    ring
  rw [e]
  simp only [Function.comp, Pi.div_apply]
  have := shunt_ne hl (angular f)
  by_cases h0 : Complex.tanh (gammaC l f * l.width) = 0
  · simp [h0]
  · field_simp

/-- A carbon layer of a tenth of a millimetre. -/
example : Conductor ⟨1, 1, 60000, 0.0001⟩ := ⟨one_pos, one_pos, by norm_num, by norm_num⟩

end Dgtd.PoleFit
