/-
C37: spherical and Cartesian coordinates.
-/
import Verif.Model.Spherical

namespace Dgtd.Spherical

noncomputable section

/-- C37: three-dimensional points other than the origin survive the conversion to spherical coordinates and back. -/
theorem C37_round_trip (x y z : ℝ) (h : ¬ (x = 0 ∧ y = 0 ∧ z = 0)) :
    ∃ s, ofCartesian [x, y, z] = some s ∧ toCartesian s = [x, y, z] := by
  have hr : radiusOf [x, y, z] = Real.sqrt (x ^ 2 + y ^ 2 + z ^ 2) := by simp [radiusOf]
  have hpos : 0 < x ^ 2 + y ^ 2 + z ^ 2 := by
    by_contra hc
    apply h
    refine ⟨?_, ?_, ?_⟩ <;> nlinarith [sq_nonneg x, sq_nonneg y, sq_nonneg z]
  have hrp : 0 < radiusOf [x, y, z] := by rw [hr]; exact Real.sqrt_pos.2 hpos
  refine ⟨_, if_neg hrp.ne', ?_⟩
  have hsq : radiusOf [x, y, z] ^ 2 = x ^ 2 + y ^ 2 + z ^ 2 := by rw [hr, Real.sq_sqrt hpos.le]
  set r := radiusOf [x, y, z] with hrdef
  have hz : |z| ≤ r := by
    rw [hr]; apply Real.abs_le_sqrt; nlinarith [sq_nonneg x, sq_nonneg y]
  have hz' := abs_le.1 hz
  have hcos : Real.cos (Real.arccos (z / r)) = z / r :=
    Real.cos_arccos (by rw [le_div_iff₀ hrp]; linarith) (by rw [div_le_iff₀ hrp]; linarith)
  have hsin : r * Real.sin (Real.arccos (z / r)) = ‖(⟨x, y⟩ : ℂ)‖ := by
    rw [Real.sin_arccos, Complex.norm_eq_sqrt_sq_add_sq]
    conv_lhs => rw [← Real.sqrt_sq hrp.le]
    rw [← Real.sqrt_mul (sq_nonneg r)]
    congr 1
    have : r ^ 2 * (1 - (z / r) ^ 2) = r ^ 2 - z ^ 2 := by field_simp
    rw [Real.sqrt_sq hrp.le, this, hsq]
    ring
  have hc : ‖(⟨x, y⟩ : ℂ)‖ * Real.cos (Complex.arg ⟨x, y⟩) = x := Complex.norm_mul_cos_arg _
  have hs : ‖(⟨x, y⟩ : ℂ)‖ * Real.sin (Complex.arg ⟨x, y⟩) = y := Complex.norm_mul_sin_arg _
  simp only [toCartesian, hcos, hsin, hc, hs]
  rw [mul_div_cancel₀ z hrp.ne']

/-- C37: points of the plane become points of space with third coordinate zero, the origin included. -/
theorem C37_round_trip_plane (x y : ℝ) :
    ∃ s, ofCartesian [x, y] = some s ∧ toCartesian s = [x, y, 0] := by
  refine ⟨_, rfl, ?_⟩
  have hr : radiusOf [x, y] = ‖(⟨x, y⟩ : ℂ)‖ := by
    rw [Complex.norm_eq_sqrt_sq_add_sq]; simp [radiusOf]
  have hc : ‖(⟨x, y⟩ : ℂ)‖ * Real.cos (Complex.arg ⟨x, y⟩) = x := Complex.norm_mul_cos_arg _
  have hs : ‖(⟨x, y⟩ : ℂ)‖ * Real.sin (Complex.arg ⟨x, y⟩) = y := Complex.norm_mul_sin_arg _
  simp only [toCartesian, Real.sin_pi_div_two, Real.cos_pi_div_two, mul_one, mul_zero, hr, hc, hs]

/-- C37: spherical coordinates in their usual ranges survive the conversion to Cartesian coordinates and back. -/
theorem C37_round_trip_back (r θ φ : ℝ) (hr : 0 < r) (hθ : 0 < θ ∧ θ < Real.pi) (hφ : -Real.pi < φ ∧ φ ≤ Real.pi) :
    ofCartesian (toCartesian ⟨r, θ, φ⟩) = some ⟨r, θ, φ⟩ := by
  have h1 := Real.sin_sq_add_cos_sq θ
  have h2 := Real.sin_sq_add_cos_sq φ
  have hs : 0 < Real.sin θ := Real.sin_pos_of_pos_of_lt_pi hθ.1 hθ.2
  have hrad : radiusOf [r * Real.sin θ * Real.cos φ, r * Real.sin θ * Real.sin φ, r * Real.cos θ] = r := by
    have : radiusOf [r * Real.sin θ * Real.cos φ, r * Real.sin θ * Real.sin φ, r * Real.cos θ] = Real.sqrt (r ^ 2) := by
      unfold radiusOf
      congr 1
      simp only [List.foldl_cons, List.foldl_nil]
      linear_combination r ^ 2 * h1 + r ^ 2 * Real.sin θ ^ 2 * h2
    rw [this, Real.sqrt_sq hr.le]
  have harg : Complex.arg ⟨r * Real.sin θ * Real.cos φ, r * Real.sin θ * Real.sin φ⟩ = φ := by
    have : (⟨r * Real.sin θ * Real.cos φ, r * Real.sin θ * Real.sin φ⟩ : ℂ) =
        ((r * Real.sin θ : ℝ) : ℂ) * (Complex.cos φ + Complex.sin φ * Complex.I) := by
      rw [← Complex.ofReal_cos, ← Complex.ofReal_sin]
      apply Complex.ext <;> simp only [Complex.re_ofReal_mul, Complex.im_ofReal_mul, Complex.add_re, Complex.add_im,
        Complex.ofReal_re, Complex.ofReal_im, Complex.I_re, Complex.I_im] <;> ring
    rw [this]
    exact Complex.arg_mul_cos_add_sin_mul_I (mul_pos hr hs) hφ
  unfold toCartesian ofCartesian
  simp only [hrad, harg]
  rw [if_neg hr.ne', mul_div_cancel_left₀ _ hr.ne', Real.arccos_cos hθ.1.le hθ.2.le]

/-- C37: a vector given by its spherical components is the combination of the three unit vectors at the point. -/
theorem C37_field (s : SphVec) (ar at' ap : ℝ) (i : Fin 3) :
    fieldToCartesian s ar at' ap i =
      ar * (![Real.sin s.theta * Real.cos s.phi, Real.sin s.theta * Real.sin s.phi, Real.cos s.theta] : Fin 3 → ℝ) i +
      at' * (![Real.cos s.theta * Real.cos s.phi, Real.cos s.theta * Real.sin s.phi, -Real.sin s.theta] : Fin 3 → ℝ) i +
      ap * (![-Real.sin s.phi, Real.cos s.phi, 0] : Fin 3 → ℝ) i := by
  fin_cases i <;> simp [fieldToCartesian] <;> ring

/-- C37: so its length is that of its components. -/
theorem C37_field_length (s : SphVec) (ar at' ap : ℝ) :
    fieldToCartesian s ar at' ap 0 ^ 2 + fieldToCartesian s ar at' ap 1 ^ 2 + fieldToCartesian s ar at' ap 2 ^ 2 =
      ar ^ 2 + at' ^ 2 + ap ^ 2 := by
  have h1 := Real.sin_sq_add_cos_sq s.theta
  have h2 := Real.sin_sq_add_cos_sq s.phi
  simp only [fieldToCartesian, Matrix.cons_val_zero, Matrix.cons_val_one, Matrix.cons_val]
  linear_combination (ar ^ 2 + at' ^ 2) * h1 +
    ((Real.sin s.theta * ar + Real.cos s.theta * at') ^ 2 + ap ^ 2) * h2

/-- A point with negative coordinates, on the branch cut of the azimuth. -/
example : ∃ s, ofCartesian [-3, 0, -4] = some s ∧ toCartesian s = [-3, 0, -4] ∧ s.radius = 5 ∧ s.phi = Real.pi := by
  obtain ⟨s, h1, h2⟩ := C37_round_trip (-3) 0 (-4) (by norm_num)
  have hr : radiusOf [-3, 0, -4] = 5 := by
    have : radiusOf [-3, 0, -4] = Real.sqrt (5 ^ 2) := by unfold radiusOf; congr 1; norm_num
    rw [this, Real.sqrt_sq (by norm_num)]
  have hs : ofCartesian [-3, 0, -4] = some ⟨5, Real.arccos (-4 / 5), Complex.arg ⟨-3, 0⟩⟩ := by
    simp [ofCartesian, hr]
  rw [hs, Option.some.injEq] at h1
  subst h1
  refine ⟨_, hs, h2, rfl, ?_⟩
  have : (⟨-3, 0⟩ : ℂ) = ((-3 : ℝ) : ℂ) := by apply Complex.ext <;> simp
  simp only [this]
  exact Complex.arg_ofReal_of_neg (by norm_num)

/-- The origin of space has no spherical coordinates. -/
example : ofCartesian [0, 0, 0] = none := by simp [ofCartesian, radiusOf]

end

end Dgtd.Spherical
