/-
C140: Gaussian initial fields of two and three dimensions.
-/
import Verif.Props.Mode
import Mathlib.Analysis.SpecialFunctions.Gaussian.FourierTransform
import Mathlib.Analysis.SpecialFunctions.Trigonometric.Sinc
import Mathlib.Analysis.Calculus.ParametricIntegral
import Mathlib.MeasureTheory.Integral.Prod

namespace Dgtd.Mode

open Spec Dgtd.Wave.Spec Dgtd.Config MeasureTheory

/-! ### pulses with a divergence -/

lemma bell_ne (spread c x : ℝ) : bell spread c x ≠ 0 := Real.exp_ne_zero _

lemma bell'_zero (spread c : ℝ) : bell' spread c c = 0 := by simp [bell']

lemma bell'_ne {spread c x : ℝ} (hs : spread ≠ 0) (hx : x ≠ c) : bell' spread c x ≠ 0 :=
  mul_ne_zero (bell_ne _ _ _) (div_ne_zero (neg_ne_zero.2 (mul_ne_zero two_ne_zero (sub_ne_zero.2 hx)))
    (mul_ne_zero two_ne_zero (pow_ne_zero _ hs)))

lemma bell'_eq (spread c x : ℝ) : bell' spread c x = bell spread c x * (-(x - c) / spread ^ 2) := by
  unfold bell'
  congr 1
  rw [neg_div, neg_div, mul_div_mul_left _ _ two_ne_zero]

/-- Sums of multiples of the coordinates that are constant in the unit cube are constant because the multiples are zero. -/
lemma flat {a b c k : ℝ} (h : ∀ x y z, Inside x y z → a * x + b * y + c * z = k) : a = 0 ∧ b = 0 ∧ c = 0 := by
  have h0 := h (1 / 2) (1 / 2) (1 / 2) (by unfold Inside; norm_num)
  have h1 := h (1 / 4) (1 / 2) (1 / 2) (by unfold Inside; norm_num)
  have h2 := h (1 / 2) (1 / 4) (1 / 2) (by unfold Inside; norm_num)
  have h3 := h (1 / 2) (1 / 2) (1 / 4) (by unfold Inside; norm_num)
  refine ⟨?_, ?_, ?_⟩ <;> linarith

/-- **C140 fails**: a pulse of three dimensions starts no solution, however it is polarised: it has a divergence. -/
theorem C140_space_fails (own : FieldType) (spread c0 c1 c2 : ℝ) (hs : spread ≠ 0) (pol : Axis → ℝ) (hp : ∃ d, pol d ≠ 0) :
    ¬ StartsSolution 3 (gaussianField own spread [c0, c1, c2] pol 3) := by
  intro hS
  have hi : ∀ x y z d, gaussianField own spread [c0, c1, c2] pol 3 ([x, y, z].take 3) own d =
      some (bell spread c0 x * bell spread c1 y * bell spread c2 z * pol d) := by
    intro x y z d
    rw [C140_value own spread _ pol 3 (by norm_num) le_rfl _ (by simp) (by simp)]
    simp only [if_true, bell, ← Real.exp_add]
    simp [List.range_succ]
    left
    ring
  have key : ∀ x y z, Inside x y z → pol .X * x + pol .Y * y + pol .Z * z = pol .X * c0 + pol .Y * c1 + pol .Z * c2 := by
    intro x y z hin
    have a := div_free hi hS hin (bell_deriv _ _ x) (bell_deriv _ _ y) (bell_deriv _ _ z)
    rw [bell'_eq, bell'_eq, bell'_eq] at a
    have b : bell spread c0 x * bell spread c1 y * bell spread c2 z * (-1 / spread ^ 2) *
        (pol .X * (x - c0) + pol .Y * (y - c1) + pol .Z * (z - c2)) = 0 := by linear_combination a
    have n : bell spread c0 x * bell spread c1 y * bell spread c2 z * (-1 / spread ^ 2) ≠ 0 :=
      mul_ne_zero (mul_ne_zero (mul_ne_zero (bell_ne _ _ _) (bell_ne _ _ _)) (bell_ne _ _ _))
        (div_ne_zero (by norm_num) (pow_ne_zero _ hs))
    have := (mul_eq_zero.1 b).resolve_left n
    linarith
  obtain ⟨h0, h1, h2⟩ := flat key
  obtain ⟨d, hd⟩ := hp
  cases d with
  | X => exact hd h0
  | Y => exact hd h1
  | Z => exact hd h2

/-- **C140 fails**: a pulse of two dimensions with a component in the plane starts no solution. -/
theorem C140_plane_fails (own : FieldType) (spread c0 c1 : ℝ) (hs : spread ≠ 0) (pol : Axis → ℝ) (hp : pol .X ≠ 0 ∨ pol .Y ≠ 0) :
    ¬ StartsSolution 2 (gaussianField own spread [c0, c1] pol 2) := by
  intro hS
  have hi : ∀ x y z d, gaussianField own spread [c0, c1] pol 2 ([x, y, z].take 2) own d =
      some (bell spread c0 x * bell spread c1 y * (fun _ => (1 : ℝ)) z * pol d) := by
    intro x y z d
    rw [C140_value own spread _ pol 2 (by norm_num) (by norm_num) _ (by simp) (by simp)]
    simp only [if_true, bell, ← Real.exp_add]
    simp [List.range_succ]
    left
    ring
  have key : ∀ x y z, Inside x y z → pol .X * x + pol .Y * y + 0 * z = pol .X * c0 + pol .Y * c1 := by
    intro x y z hin
    have a := div_free hi hS hin (bell_deriv _ _ x) (bell_deriv _ _ y) (hasDerivAt_const _ _)
    rw [bell'_eq, bell'_eq] at a
    have b : bell spread c0 x * bell spread c1 y * (-1 / spread ^ 2) *
        (pol .X * (x - c0) + pol .Y * (y - c1)) = 0 := by linear_combination a
    have n : bell spread c0 x * bell spread c1 y * (-1 / spread ^ 2) ≠ 0 :=
      mul_ne_zero (mul_ne_zero (bell_ne _ _ _) (bell_ne _ _ _)) (div_ne_zero (by norm_num) (pow_ne_zero _ hs))
    have := (mul_eq_zero.1 b).resolve_left n
    linarith
  obtain ⟨h0, h1, -⟩ := flat key
  rcases hp with hd | hd
  · exact hd h0
  · exact hd h1

/-! ### the transform of the bell -/

lemma gauss_pair {b : ℝ} (hb : 0 < b) (X : ℝ) :
    ∫ a : ℝ, Real.exp (-b * a ^ 2) * Real.cos (a * X) = Real.sqrt (Real.pi / b) * Real.exp (-X ^ 2 / (4 * b)) ∧
    ∫ a : ℝ, Real.exp (-b * a ^ 2) * Real.sin (a * X) = 0 := by
  have hF := fourierIntegral_gaussian (b := (b : ℂ)) (by simpa using hb) (X : ℂ)
  have hR : ((Real.pi : ℂ) / b) ^ (1 / 2 : ℂ) * Complex.exp (-(X : ℂ) ^ 2 / (4 * b)) =
      ((Real.sqrt (Real.pi / b) * Real.exp (-X ^ 2 / (4 * b)) : ℝ) : ℂ) := by
    rw [Complex.ofReal_mul, Real.sqrt_eq_rpow, Complex.ofReal_cpow (by positivity)]
    push_cast
    rfl
  have hI : Integrable fun a : ℝ => Complex.exp (Complex.I * X * a) * Complex.exp (-(b : ℂ) * a ^ 2) := by
    have := integrable_cexp_quadratic (b := (b : ℂ)) (by simpa using hb) (Complex.I * X) 0
    refine this.congr (Filter.Eventually.of_forall fun a => ?_)
    simp only [add_zero]
    rw [← Complex.exp_add, add_comm]
  have hpt : ∀ a : ℝ, Complex.exp (Complex.I * X * a) * Complex.exp (-(b : ℂ) * a ^ 2) =
      ((Real.exp (-b * a ^ 2) * Real.cos (a * X) : ℝ) : ℂ) + ((Real.exp (-b * a ^ 2) * Real.sin (a * X) : ℝ) : ℂ) * Complex.I := by
    intro a
    rw [show Complex.I * X * a = ((a * X : ℝ) : ℂ) * Complex.I by push_cast; ring, Complex.exp_mul_I]
    push_cast
    ring
  rw [hR] at hF
  constructor
  · have := Complex.reCLM.integral_comp_comm hI
    rw [hF] at this
    simp only [hpt, Complex.reCLM_apply, Complex.add_re, Complex.ofReal_re, Complex.re_ofReal_mul, Complex.I_re, mul_zero, add_zero] at this
    exact this
  · have := Complex.imCLM.integral_comp_comm hI
    rw [hF] at this
    simp only [hpt, Complex.imCLM_apply, Complex.add_im, Complex.ofReal_im, Complex.im_ofReal_mul, Complex.I_im, mul_one, zero_add] at this
    exact this

/-- The weights of the waves that make up the bell. -/
noncomputable def weight (b : ℝ) (p : ℝ × ℝ) : ℝ := b / Real.pi * (Real.exp (-b * p.1 ^ 2) * Real.exp (-b * p.2 ^ 2))

/-- Their integral over all waves. -/
noncomputable def blend (b : ℝ) (g : ℝ × ℝ → ℝ) : ℝ := ∫ p : ℝ × ℝ, weight b p * g p

lemma moment {b : ℝ} (hb : 0 < b) : Integrable fun x : ℝ => x ^ 2 * Real.exp (-b * x ^ 2) := by
  have := integrable_rpow_mul_exp_neg_mul_sq hb (s := 2) (by norm_num)
  simpa using this

lemma dominated {b : ℝ} (hb : 0 < b) : Integrable fun p : ℝ × ℝ => weight b p * (1 + p.1 ^ 2 + p.2 ^ 2) := by
  have h0 := integrable_exp_neg_mul_sq hb
  have h2 := moment hb
  have a := (h0.mul_prod h0).add ((h2.mul_prod h0).add (h0.mul_prod h2))
  refine (a.const_mul (b / Real.pi)).congr (Filter.Eventually.of_forall fun p => ?_)
  simp only [weight, Pi.add_apply]
  ring

lemma weight_cont (b : ℝ) : Continuous (weight b) := by unfold weight; fun_prop

lemma weight_pos {b : ℝ} (hb : 0 < b) (p : ℝ × ℝ) : 0 < weight b p := by unfold weight; positivity

lemma blendable {b : ℝ} (hb : 0 < b) {g : ℝ × ℝ → ℝ} (hc : Continuous g) {C : ℝ} (h : ∀ p, |g p| ≤ C * (1 + p.1 ^ 2 + p.2 ^ 2)) :
    Integrable fun p => weight b p * g p := by
  refine ((dominated hb).const_mul C).mono' ((weight_cont b).mul hc).aestronglyMeasurable (Filter.Eventually.of_forall fun p => ?_)
  rw [Real.norm_eq_abs, abs_mul, abs_of_pos (weight_pos hb p)]
  have := mul_le_mul_of_nonneg_left (h p) (weight_pos hb p).le
  linarith

lemma blend_bell {s : ℝ} (hs : s ≠ 0) (X Y : ℝ) : blend (s ^ 2 / 2) (fun p => Real.cos (p.1 * X + p.2 * Y)) =
    Real.exp (-(X ^ 2 + Y ^ 2) / (2 * s ^ 2)) := by
  obtain ⟨b, hbd⟩ : ∃ b, b = s ^ 2 / 2 := ⟨_, rfl⟩
  have hb : 0 < b := by rw [hbd]; positivity
  rw [← hbd]
  have ic : ∀ Z : ℝ, Integrable fun a : ℝ => Real.exp (-b * a ^ 2) * Real.cos (a * Z) := fun Z =>
    (integrable_exp_neg_mul_sq hb).mul_bdd (c := 1) (by fun_prop) (Filter.Eventually.of_forall fun a => Real.abs_cos_le_one _)
  have is : ∀ Z : ℝ, Integrable fun a : ℝ => Real.exp (-b * a ^ 2) * Real.sin (a * Z) := fun Z =>
    (integrable_exp_neg_mul_sq hb).mul_bdd (c := 1) (by fun_prop) (Filter.Eventually.of_forall fun a => Real.abs_sin_le_one _)
  have e : ∀ p : ℝ × ℝ, weight b p * Real.cos (p.1 * X + p.2 * Y) =
      b / Real.pi * ((Real.exp (-b * p.1 ^ 2) * Real.cos (p.1 * X)) * (Real.exp (-b * p.2 ^ 2) * Real.cos (p.2 * Y)) -
        (Real.exp (-b * p.1 ^ 2) * Real.sin (p.1 * X)) * (Real.exp (-b * p.2 ^ 2) * Real.sin (p.2 * Y))) := by
    intro p
    rw [Real.cos_add]
    unfold weight
    ring
  unfold blend
  simp only [e]
  rw [integral_const_mul, Measure.volume_eq_prod, integral_sub ((ic X).mul_prod (ic Y)) ((is X).mul_prod (is Y)),
    integral_prod_mul (fun a => Real.exp (-b * a ^ 2) * Real.cos (a * X)) (fun a => Real.exp (-b * a ^ 2) * Real.cos (a * Y)),
    integral_prod_mul (fun a => Real.exp (-b * a ^ 2) * Real.sin (a * X)) (fun a => Real.exp (-b * a ^ 2) * Real.sin (a * Y)),
    (gauss_pair hb X).1, (gauss_pair hb Y).1, (gauss_pair hb X).2, zero_mul, sub_zero]
  have q : Real.sqrt (Real.pi / b) * Real.sqrt (Real.pi / b) = Real.pi / b := Real.mul_self_sqrt (by positivity)
  have r : Real.exp (-(X ^ 2 + Y ^ 2) / (2 * s ^ 2)) = Real.exp (-X ^ 2 / (4 * b)) * Real.exp (-Y ^ 2 / (4 * b)) := by
    rw [← Real.exp_add, hbd]
    congr 1
    field_simp
    ring
  rw [r, show b / Real.pi * (Real.sqrt (Real.pi / b) * Real.exp (-X ^ 2 / (4 * b)) * (Real.sqrt (Real.pi / b) * Real.exp (-Y ^ 2 / (4 * b)))) =
    b / Real.pi * (Real.sqrt (Real.pi / b) * Real.sqrt (Real.pi / b)) * (Real.exp (-X ^ 2 / (4 * b)) * Real.exp (-Y ^ 2 / (4 * b))) by ring, q]
  have : b / Real.pi * (Real.pi / b) = 1 := by
    have := Real.pi_ne_zero
    field_simp
  rw [this, one_mul]

/-- Differentiation of a blend of waves. -/
lemma blend_deriv {b : ℝ} (hb : 0 < b) {g g' : ℝ × ℝ → ℝ → ℝ} {a : ℝ} {C : ℝ} (hg : ∀ τ, Continuous fun p => g p τ)
    (hg' : Continuous fun p => g' p a) (hd : ∀ p τ, HasDerivAt (g p) (g' p τ) τ)
    (h0 : ∀ p, |g p a| ≤ C * (1 + p.1 ^ 2 + p.2 ^ 2))
    (h1 : ∀ p τ, |τ - a| < 1 → |g' p τ| ≤ C * (1 + p.1 ^ 2 + p.2 ^ 2)) :
    HasDerivAt (fun τ => blend b fun p => g p τ) (blend b fun p => g' p a) a := by
  refine (hasDerivAt_integral_of_dominated_loc_of_deriv_le (F := fun τ p => weight b p * g p τ) (F' := fun τ p => weight b p * g' p τ)
    (bound := fun p => C * (weight b p * (1 + p.1 ^ 2 + p.2 ^ 2))) (Metric.ball_mem_nhds a one_pos) ?_ (blendable hb (hg a) h0) ?_ ?_
    ((dominated hb).const_mul C) ?_).2
  · exact Filter.Eventually.of_forall fun τ => ((weight_cont b).mul (hg τ)).aestronglyMeasurable
  · exact ((weight_cont b).mul hg').aestronglyMeasurable
  · refine Filter.Eventually.of_forall fun p τ hτ => ?_
    rw [Real.norm_eq_abs, abs_mul, abs_of_pos (weight_pos hb p)]
    have := mul_le_mul_of_nonneg_left (h1 p τ (by simpa [Real.dist_eq] using hτ)) (weight_pos hb p).le
    linarith
  · exact Filter.Eventually.of_forall fun p τ _ => (hd p τ).const_mul _

/-! ### waves in all directions of the plane -/

/-- The frequency of a wave. -/
noncomputable def freq (p : ℝ × ℝ) : ℝ := Real.sqrt (p.1 ^ 2 + p.2 ^ 2)

/-- A blend of waves about the point `c0, c1`. -/
noncomputable def waves (b c0 c1 : ℝ) (q : ℝ × ℝ → ℝ) (u : ℝ → ℝ) (v : ℝ → ℝ → ℝ) (x y t : ℝ) : ℝ :=
  blend b fun p => q p * u (p.1 * (x - c0) + p.2 * (y - c1)) * v (freq p) t

lemma freq_cont : Continuous freq := by unfold freq; fun_prop

lemma freq_sq' (p : ℝ × ℝ) : freq p * freq p = p.1 ^ 2 + p.2 ^ 2 := Real.mul_self_sqrt (by positivity)

lemma freq_le (p : ℝ × ℝ) : |freq p| ≤ 1 + p.1 ^ 2 + p.2 ^ 2 := by
  have h := freq_sq' p
  have h0 : 0 ≤ freq p := Real.sqrt_nonneg _
  rw [abs_of_nonneg h0]
  nlinarith [sq_nonneg (freq p - 1)]

lemma three_le {q u v Q c : ℝ} (hq : |q| ≤ Q) (hu : |u| ≤ 1) (hv : |v| ≤ c) : |q * u * v| ≤ c * Q := by
  rw [abs_mul, abs_mul]
  have h1 : |q| * |u| ≤ Q * 1 := mul_le_mul hq hu (abs_nonneg _) ((abs_nonneg _).trans hq)
  have h2 := mul_le_mul h1 hv (abs_nonneg _) (by have := (abs_nonneg q).trans hq; linarith)
  linarith

section
variable {b c0 c1 : ℝ} (hb : 0 < b) {q : ℝ × ℝ → ℝ} (hq : Continuous q) (hqQ : ∀ p, |q p| ≤ 1 + p.1 ^ 2 + p.2 ^ 2)
  {u : ℝ → ℝ} (hu : Continuous u) (hu1 : ∀ a, |u a| ≤ 1) {v : ℝ → ℝ → ℝ} (hv : ∀ t, Continuous fun k => v k t)

include hb hq hqQ hu hu1 hv

lemma waves_dx {u' : ℝ → ℝ} (hu' : Continuous u') (hu1' : ∀ a, |u' a| ≤ 1) (hd : ∀ a, HasDerivAt u (u' a) a) {c t : ℝ}
    (hc : ∀ k, |v k t| ≤ c) (hqx : ∀ p, |q p * p.1| ≤ 1 + p.1 ^ 2 + p.2 ^ 2) (x y : ℝ) :
    HasDerivAt (fun a => waves b c0 c1 q u v a y t) (waves b c0 c1 (fun p => q p * p.1) u' v x y t) x := by
  have hf := freq_cont
  have hvt := hv t
  have hvf : Continuous fun p => v (freq p) t := hvt.comp hf
  refine blend_deriv hb (C := c) (g := fun p a => q p * u (p.1 * (a - c0) + p.2 * (y - c1)) * v (freq p) t)
    (g' := fun p a => q p * p.1 * u' (p.1 * (a - c0) + p.2 * (y - c1)) * v (freq p) t) (fun τ => by fun_prop) (by fun_prop) ?_
    (fun p => three_le (hqQ p) (hu1 _) (hc _)) (fun p τ _ => three_le (hqx p) (hu1' _) (hc _))
  intro p τ
  have h1 : HasDerivAt (fun a => p.1 * (a - c0) + p.2 * (y - c1)) p.1 τ := by
    have := (((hasDerivAt_id τ).sub_const c0).const_mul p.1).add_const (p.2 * (y - c1))
    simpa using this
  have h2 := (((hd _).comp τ h1).const_mul (q p)).mul_const (v (freq p) t)
  refine h2.congr_deriv ?_
  ring

lemma waves_dy {u' : ℝ → ℝ} (hu' : Continuous u') (hu1' : ∀ a, |u' a| ≤ 1) (hd : ∀ a, HasDerivAt u (u' a) a) {c t : ℝ}
    (hc : ∀ k, |v k t| ≤ c) (hqy : ∀ p, |q p * p.2| ≤ 1 + p.1 ^ 2 + p.2 ^ 2) (x y : ℝ) :
    HasDerivAt (fun a => waves b c0 c1 q u v x a t) (waves b c0 c1 (fun p => q p * p.2) u' v x y t) y := by
  have hf := freq_cont
  have hvt := hv t
  have hvf : Continuous fun p => v (freq p) t := hvt.comp hf
  refine blend_deriv hb (C := c) (g := fun p a => q p * u (p.1 * (x - c0) + p.2 * (a - c1)) * v (freq p) t)
    (g' := fun p a => q p * p.2 * u' (p.1 * (x - c0) + p.2 * (a - c1)) * v (freq p) t) (fun τ => by fun_prop) (by fun_prop) ?_
    (fun p => three_le (hqQ p) (hu1 _) (hc _)) (fun p τ _ => three_le (hqy p) (hu1' _) (hc _))
  intro p τ
  have h1 : HasDerivAt (fun a => p.1 * (x - c0) + p.2 * (a - c1)) p.2 τ := by
    have := (((hasDerivAt_id τ).sub_const c1).const_mul p.2).const_add (p.1 * (x - c0))
    simpa using this
  have h2 := (((hd _).comp τ h1).const_mul (q p)).mul_const (v (freq p) t)
  refine h2.congr_deriv ?_
  ring

lemma waves_dt {κ : ℝ → ℝ} (hκ : Continuous κ) {v' : ℝ → ℝ → ℝ} (hv' : ∀ t, Continuous fun k => v' k t) (hv1' : ∀ k t, |v' k t| ≤ 1)
    (hd : ∀ k t, HasDerivAt (v k) (κ k * v' k t) t) {c t : ℝ} (hc1 : 1 ≤ c) (hc : ∀ k, |v k t| ≤ c)
    (hqk : ∀ p, |q p * κ (freq p)| ≤ 1 + p.1 ^ 2 + p.2 ^ 2) (x y : ℝ) :
    HasDerivAt (fun a => waves b c0 c1 q u v x y a) (waves b c0 c1 (fun p => q p * κ (freq p)) u v' x y t) t := by
  have hf := freq_cont
  have hvf : ∀ t, Continuous fun p => v (freq p) t := fun t => (hv t).comp hf
  have hvf' : Continuous fun p => v' (freq p) t := (hv' t).comp hf
  refine blend_deriv hb (C := c) (g := fun p a => q p * u (p.1 * (x - c0) + p.2 * (y - c1)) * v (freq p) a)
    (g' := fun p a => q p * κ (freq p) * u (p.1 * (x - c0) + p.2 * (y - c1)) * v' (freq p) a)
    (fun τ => by have := hvf τ; fun_prop) (by fun_prop) ?_
    (fun p => three_le (hqQ p) (hu1 _) (hc _)) (fun p τ _ => three_le (hqk p) (hu1 _) ((hv1' _ _).trans hc1))
  intro p τ
  have h2 := (hd (freq p) τ).const_mul (q p * u (p.1 * (x - c0) + p.2 * (y - c1)))
  refine h2.congr_deriv ?_
  ring

end

/-- `cos (k t)`. -/
noncomputable def beat (k t : ℝ) : ℝ := Real.cos (k * t)

/-- `sin (k t) / k`, and `t` for `k = 0`. -/
noncomputable def swing (k t : ℝ) : ℝ := t * Real.sinc (k * t)

lemma swing_mul (k t : ℝ) : k * swing k t = Real.sin (k * t) := by
  unfold swing
  by_cases h : k * t = 0
  · rw [h, Real.sinc_zero, Real.sin_zero, mul_one, h]
  · rw [Real.sinc_of_ne_zero h, ← mul_assoc, mul_div_cancel₀ _ h]

lemma swing_deriv (k t : ℝ) : HasDerivAt (swing k) (1 * beat k t) t := by
  by_cases h : k = 0
  · subst h
    have : swing 0 = id := by
      funext a
      simp [swing]
    rw [this]
    simpa [beat] using hasDerivAt_id t
  · have : swing k = fun a => Real.sin (k * a) / k := by
      funext a
      rw [eq_div_iff h, mul_comm, swing_mul]
    rw [this]
    refine ((dsin k t).div_const k).congr_deriv ?_
    unfold beat
    field_simp

lemma beat_deriv (k t : ℝ) : HasDerivAt (beat k) (k * (fun k t => -Real.sin (k * t)) k t) t :=
  (dcos k t).congr_deriv (by ring)

lemma swing_le (k t : ℝ) : |swing k t| ≤ |t| + 1 := by
  unfold swing
  rw [abs_mul]
  have := mul_le_mul_of_nonneg_left (Real.abs_sinc_le_one (k * t)) (abs_nonneg t)
  linarith

lemma swing_cont (t : ℝ) : Continuous fun k => swing k t := by
  unfold swing
  have := Real.continuous_sinc
  fun_prop

lemma beat_cont (t : ℝ) : Continuous fun k => beat k t := by unfold beat; fun_prop

/-! ### the solution -/

section
variable (b c0 c1 : ℝ)

/-- The field of the pulse: out of the plane. -/
noncomputable def ringA : VField := fun x y _ t =>
  ![0, 0, waves b c0 c1 (fun _ => 1) Real.cos beat x y t]

/-- The other field: in the plane. -/
noncomputable def ringB (s : ℝ) : VField := fun x y _ t =>
  ![s * waves b c0 c1 (fun p => p.2) Real.sin swing x y t, -s * waves b c0 c1 (fun p => p.1) Real.sin swing x y t, 0]

noncomputable def ringDA (x y t : ℝ) : Fin 3 → Fin 4 → ℝ :=
  ![![0, 0, 0, 0], ![0, 0, 0, 0],
    ![-waves b c0 c1 (fun p => p.1) Real.sin beat x y t, -waves b c0 c1 (fun p => p.2) Real.sin beat x y t, 0,
      -(waves b c0 c1 (fun p => p.1 * p.1) Real.cos swing x y t + waves b c0 c1 (fun p => p.2 * p.2) Real.cos swing x y t)]]

noncomputable def ringDB (s x y t : ℝ) : Fin 3 → Fin 4 → ℝ :=
  ![![s * waves b c0 c1 (fun p => p.2 * p.1) Real.cos swing x y t, s * waves b c0 c1 (fun p => p.2 * p.2) Real.cos swing x y t, 0,
      s * waves b c0 c1 (fun p => p.2) Real.sin beat x y t],
    ![-s * waves b c0 c1 (fun p => p.1 * p.1) Real.cos swing x y t, -s * waves b c0 c1 (fun p => p.2 * p.1) Real.cos swing x y t, 0,
      -s * waves b c0 c1 (fun p => p.1) Real.sin beat x y t],
    ![0, 0, 0, 0]]
end

lemma waves_neg (b c0 c1 : ℝ) (q : ℝ × ℝ → ℝ) (u : ℝ → ℝ) (v : ℝ → ℝ → ℝ) (x y t : ℝ) :
    waves b c0 c1 q (fun a => -u a) v x y t = -waves b c0 c1 q u v x y t := by
  unfold waves blend
  rw [← integral_neg]
  congr 1
  funext p
  ring

lemma le1 (p : ℝ × ℝ) : |p.1| ≤ 1 + p.1 ^ 2 + p.2 ^ 2 := by
  rw [abs_le]; constructor <;> nlinarith [sq_nonneg (p.1 - 1), sq_nonneg (p.1 + 1), sq_nonneg p.2]
lemma le2 (p : ℝ × ℝ) : |p.2| ≤ 1 + p.1 ^ 2 + p.2 ^ 2 := by
  rw [abs_le]; constructor <;> nlinarith [sq_nonneg (p.2 - 1), sq_nonneg (p.2 + 1), sq_nonneg p.1]
lemma le0 (p : ℝ × ℝ) : |(1 : ℝ)| ≤ 1 + p.1 ^ 2 + p.2 ^ 2 := by
  rw [abs_one]; nlinarith [sq_nonneg p.1, sq_nonneg p.2]
lemma le11 (p : ℝ × ℝ) : |p.1 * p.1| ≤ 1 + p.1 ^ 2 + p.2 ^ 2 := by
  rw [abs_le]; constructor <;> nlinarith [sq_nonneg p.1, sq_nonneg p.2]
lemma le22 (p : ℝ × ℝ) : |p.2 * p.2| ≤ 1 + p.1 ^ 2 + p.2 ^ 2 := by
  rw [abs_le]; constructor <;> nlinarith [sq_nonneg p.1, sq_nonneg p.2]
lemma le12 (p : ℝ × ℝ) : |p.1 * p.2| ≤ 1 + p.1 ^ 2 + p.2 ^ 2 := by
  rw [abs_le]; constructor <;> nlinarith [sq_nonneg (p.1 - p.2), sq_nonneg (p.1 + p.2), sq_nonneg p.1, sq_nonneg p.2]

/-- The wave equation. -/
lemma waves_laplace {b : ℝ} (hb : 0 < b) (c0 c1 x y t : ℝ) :
    waves b c0 c1 (fun p => 1 * freq p) Real.cos (fun k t => -Real.sin (k * t)) x y t =
      -(waves b c0 c1 (fun p => p.1 * p.1) Real.cos swing x y t + waves b c0 c1 (fun p => p.2 * p.2) Real.cos swing x y t) := by
  have hs : Continuous fun p : ℝ × ℝ => swing (freq p) t := (swing_cont t).comp freq_cont
  have i1 := blendable hb (g := fun p => p.1 * p.1 * Real.cos (p.1 * (x - c0) + p.2 * (y - c1)) * swing (freq p) t) (by fun_prop)
    fun p => three_le (le11 p) (Real.abs_cos_le_one _) (swing_le _ _)
  have i2 := blendable hb (g := fun p => p.2 * p.2 * Real.cos (p.1 * (x - c0) + p.2 * (y - c1)) * swing (freq p) t) (by fun_prop)
    fun p => three_le (le22 p) (Real.abs_cos_le_one _) (swing_le _ _)
  unfold waves blend
  rw [← integral_add i1 i2, ← integral_neg]
  congr 1
  funext p
  have h1 := freq_sq' p
  have h2 := swing_mul (freq p) t
  simp only
  rw [← h2]
  linear_combination (-(weight b p * Real.cos (p.1 * (x - c0) + p.2 * (y - c1)) * swing (freq p) t)) * h1

lemma ring_partA {b : ℝ} (hb : 0 < b) (c0 c1 x y z t : ℝ) : ∀ c, Partials (fun x y z t => ringA b c0 c1 x y z t c) x y z t
    (ringDA b c0 c1 x y t c 0) (ringDA b c0 c1 x y t c 1) (ringDA b c0 c1 x y t c 2) (ringDA b c0 c1 x y t c 3) := by
  intro c
  fin_cases c
  · exact part_zero x y z t
  · exact part_zero x y z t
  · constructor
    · refine (waves_dx hb (q := fun _ => 1) continuous_const le0 Real.continuous_cos Real.abs_cos_le_one beat_cont (u' := fun a => -Real.sin a)
        (by fun_prop) (fun a => by rw [abs_neg]; exact Real.abs_sin_le_one a) Real.hasDerivAt_cos (c := 1)
        (fun k => Real.abs_cos_le_one _) (fun p => by rw [one_mul]; exact le1 p) x y).congr_deriv ?_
      rw [waves_neg]
      simp [ringDA]
    · refine (waves_dy hb (q := fun _ => 1) continuous_const le0 Real.continuous_cos Real.abs_cos_le_one beat_cont (u' := fun a => -Real.sin a)
        (by fun_prop) (fun a => by rw [abs_neg]; exact Real.abs_sin_le_one a) Real.hasDerivAt_cos (c := 1)
        (fun k => Real.abs_cos_le_one _) (fun p => by rw [one_mul]; exact le2 p) x y).congr_deriv ?_
      rw [waves_neg]
      simp [ringDA]
    · exact hasDerivAt_const _ _
    · refine (waves_dt hb (q := fun _ => 1) continuous_const le0 Real.continuous_cos Real.abs_cos_le_one beat_cont (κ := fun k => k)
        continuous_id (v' := fun k t => -Real.sin (k * t)) (fun t => by fun_prop)
        (fun k t => by rw [abs_neg]; exact Real.abs_sin_le_one _) beat_deriv le_rfl
        (fun k => Real.abs_cos_le_one _) (fun p => by rw [one_mul]; exact freq_le p) x y).congr_deriv ?_
      rw [waves_laplace hb]
      rfl

lemma ring_partB {b : ℝ} (hb : 0 < b) (c0 c1 s x y z t : ℝ) : ∀ c, Partials (fun x y z t => ringB b c0 c1 s x y z t c) x y z t
    (ringDB b c0 c1 s x y t c 0) (ringDB b c0 c1 s x y t c 1) (ringDB b c0 c1 s x y t c 2) (ringDB b c0 c1 s x y t c 3) := by
  have le21 : ∀ p : ℝ × ℝ, |p.2 * p.1| ≤ 1 + p.1 ^ 2 + p.2 ^ 2 := fun p => by rw [mul_comm]; exact le12 p
  have ht : 1 ≤ |t| + 1 := by have := abs_nonneg t; linarith
  intro c
  fin_cases c
  · constructor
    · exact (waves_dx hb (q := fun p => p.2) continuous_snd le2 Real.continuous_sin Real.abs_sin_le_one swing_cont
        Real.continuous_cos Real.abs_cos_le_one Real.hasDerivAt_sin (fun k => swing_le k t) le21 x y).const_mul s
    · exact (waves_dy hb (q := fun p => p.2) continuous_snd le2 Real.continuous_sin Real.abs_sin_le_one swing_cont
        Real.continuous_cos Real.abs_cos_le_one Real.hasDerivAt_sin (fun k => swing_le k t) le22 x y).const_mul s
    · exact hasDerivAt_const _ _
    · refine ((waves_dt hb (q := fun p => p.2) continuous_snd le2 Real.continuous_sin Real.abs_sin_le_one swing_cont (κ := fun _ => 1)
        continuous_const beat_cont (fun k t => Real.abs_cos_le_one _) swing_deriv ht (fun k => swing_le k t)
        (fun p => by rw [mul_one]; exact le2 p) x y).const_mul s).congr_deriv ?_
      simp [ringDB]
  · constructor
    · exact (waves_dx hb (q := fun p => p.1) continuous_fst le1 Real.continuous_sin Real.abs_sin_le_one swing_cont
        Real.continuous_cos Real.abs_cos_le_one Real.hasDerivAt_sin (fun k => swing_le k t) le11 x y).const_mul (-s)
    · refine ((waves_dy hb (q := fun p => p.1) continuous_fst le1 Real.continuous_sin Real.abs_sin_le_one swing_cont
        Real.continuous_cos Real.abs_cos_le_one Real.hasDerivAt_sin (fun k => swing_le k t) le12 x y).const_mul (-s)).congr_deriv ?_
      simp [ringDB, mul_comm]
    · exact hasDerivAt_const _ _
    · refine ((waves_dt hb (q := fun p => p.1) continuous_fst le1 Real.continuous_sin Real.abs_sin_le_one swing_cont (κ := fun _ => 1)
        continuous_const beat_cont (fun k t => Real.abs_cos_le_one _) swing_deriv ht (fun k => swing_le k t)
        (fun p => by rw [mul_one]; exact le1 p) x y).const_mul (-s)).congr_deriv ?_
      simp [ringDB]
  · exact part_zero x y z t

lemma ring_solves {b : ℝ} (hb : 0 < b) (c0 c1 : ℝ) : Solves (ringA b c0 c1) (ringB b c0 c1 1) ∧ Solves (ringB b c0 c1 (-1)) (ringA b c0 c1) := by
  constructor
  · intro x y z t
    refine ⟨_, _, ring_partA hb c0 c1 x y z t, ring_partB hb c0 c1 1 x y z t, ?_, ?_, ?_, ?_, ?_, ?_, ?_, ?_⟩ <;>
      simp [ringDA, ringDB, Matrix.cons_val_two, Matrix.cons_val_three, Matrix.head_cons, Matrix.tail_cons]
    ring
  · intro x y z t
    refine ⟨_, _, ring_partB hb c0 c1 (-1) x y z t, ring_partA hb c0 c1 x y z t, ?_, ?_, ?_, ?_, ?_, ?_, ?_, ?_⟩ <;>
      simp [ringDA, ringDB, Matrix.cons_val_two, Matrix.cons_val_three, Matrix.head_cons, Matrix.tail_cons]

lemma solves_scale {E H : VField} (h : Solves E H) (a : ℝ) : Solves (fun x y z t c => a * E x y z t c) (fun x y z t c => a * H x y z t c) := by
  intro x y z t
  obtain ⟨De, Dh, h1, h2, e1, e2, e3, e4, e5, e6, e7, e8⟩ := h x y z t
  refine ⟨fun c k => a * De c k, fun c k => a * Dh c k, ?_, ?_, ?_, ?_, ?_, ?_, ?_, ?_, ?_, ?_⟩
  · exact fun c => ⟨(h1 c).hx.const_mul a, (h1 c).hy.const_mul a, (h1 c).hz.const_mul a, (h1 c).ht.const_mul a⟩
  · exact fun c => ⟨(h2 c).hx.const_mul a, (h2 c).hy.const_mul a, (h2 c).hz.const_mul a, (h2 c).ht.const_mul a⟩
  · linear_combination a * e1
  · linear_combination a * e2
  · linear_combination a * e3
  · linear_combination a * e4
  · linear_combination a * e5
  · linear_combination a * e6
  · linear_combination a * e7
  · linear_combination a * e8

/-- **C140**: a pulse of two dimensions polarised across its plane, electric or magnetic, on a mesh of two or three
dimensions, starts a solution of Maxwell's equations, everywhere
and for all times. -/
theorem C140_ring (own : FieldType) (spread c0 c1 : ℝ) (cs : List ℝ) (hs : spread ≠ 0) (pol : Axis → ℝ) (hx : pol .X = 0)
    (hy : pol .Y = 0) :
    ∃ E H : VField, Solves E H ∧ ∀ x y z ft d dim, 2 ≤ dim → dim ≤ 3 → dim ≤ cs.length + 2 →
      gaussianField own spread (c0 :: c1 :: cs) pol 2 ([x, y, z].take dim) ft d = some (pick ft E H x y z 0 (ix d)) := by
  have hb : 0 < spread ^ 2 / 2 := by positivity
  have hS := ring_solves hb c0 c1
  have hA : ∀ x y z, ringA (spread ^ 2 / 2) c0 c1 x y z 0 2 = Real.exp (-((x - c0) ^ 2 + (y - c1) ^ 2) / (2 * spread ^ 2)) := by
    intro x y z
    rw [← blend_bell hs]
    simp [ringA, waves, beat]
  have hA' : ∀ x y z, ringA (spread ^ 2 / 2) c0 c1 x y z 0 0 = 0 ∧ ringA (spread ^ 2 / 2) c0 c1 x y z 0 1 = 0 := fun x y z => ⟨rfl, rfl⟩
  have hB : ∀ s x y z d, ringB (spread ^ 2 / 2) c0 c1 s x y z 0 d = 0 := by
    intro s x y z d
    have : ∀ k, swing k 0 = 0 := fun k => by simp [swing]
    fin_cases d <;> simp [ringB, waves, blend, this]
  have hv : ∀ x y z ft d dim, 2 ≤ dim → dim ≤ 3 → dim ≤ cs.length + 2 →
      gaussianField own spread (c0 :: c1 :: cs) pol 2 ([x, y, z].take dim) ft d = some (if ft = own then
      Real.exp (-((x - c0) ^ 2 + (y - c1) ^ 2) / (2 * spread ^ 2)) * pol d else 0) := by
    intro x y z ft d dim h2 h3 hc
    have hl : ([x, y, z].take dim).length = dim := by simp; omega
    rw [C140_value own spread _ pol 2 (by norm_num) (by norm_num) _ (by omega) (by rw [hl]; simpa using hc)]
    obtain ⟨k, rfl⟩ : ∃ k, dim = k + 2 := ⟨dim - 2, by omega⟩
    simp [List.range_succ]
  cases own with
  | E =>
    refine ⟨_, _, solves_scale hS.1 (pol .Z), ?_⟩
    intro x y z ft d dim h2 h3 hc
    rw [hv x y z ft d dim h2 h3 hc]
    cases ft <;> cases d <;> simp [pick, ix, hx, hy, hA, hA', hB, mul_comm]
  | H =>
    refine ⟨_, _, solves_scale hS.2 (pol .Z), ?_⟩
    intro x y z ft d dim h2 h3 hc
    rw [hv x y z ft d dim h2 h3 hc]
    cases ft <;> cases d <;> simp [pick, ix, hx, hy, hA, hA', hB, mul_comm]

/-- A pulse about the middle of the unit square. -/
example : gaussianField .E (1 / 10) [1 / 2, 1 / 2] zpol 2 [1 / 2, 1 / 2] .E .Z = some 1 := by
  rw [C140_value .E (1 / 10) _ zpol 2 (by norm_num) (by norm_num) _ (by simp) (by simp)]
  simp [zpol, List.range_succ]

/-- Pulses that start no solution. -/
example : (∃ d, zpol d ≠ 0) ∧ ((fun d : Axis => if d = .X then (1 : ℝ) else 0) .X ≠ 0) := ⟨⟨.Z, by simp [zpol]⟩, by simp⟩

end Dgtd.Mode
