/-
Distance of one implicit step to the Taylor polynomial of the exact solution.
-/
import Verif.Lemmas.TimeIntImp
import Mathlib.Tactic.FieldSimp

set_option linter.unusedSectionVars false

namespace Dgtd.TimeInt

variable {V : Type} [AddCommGroup V] [Module ℝ V]

/-- Square root of the form. -/
noncomputable def nrm (B : V →ₗ[ℝ] V →ₗ[ℝ] ℝ) (u : V) : ℝ := Real.sqrt (B u u)

theorem nrm_nonneg (B : V →ₗ[ℝ] V →ₗ[ℝ] ℝ) (u : V) : 0 ≤ nrm B u := Real.sqrt_nonneg _

theorem nrm_le_iff {B : V →ₗ[ℝ] V →ₗ[ℝ] ℝ} (h : ∀ u, 0 ≤ B u u) {u v : V} : nrm B u ≤ nrm B v ↔ B u u ≤ B v v :=
  Real.sqrt_le_sqrt_iff (h v)

theorem nrm_sq {B : V →ₗ[ℝ] V →ₗ[ℝ] ℝ} (h : ∀ u, 0 ≤ B u u) (u : V) : nrm B u ^ 2 = B u u := Real.sq_sqrt (h u)

/-- Cauchy–Schwarz. -/
theorem form_le {B : V →ₗ[ℝ] V →ₗ[ℝ] ℝ} (s : ∀ u v, B u v = B v u) (h : ∀ u, 0 ≤ B u u) (u v : V) :
    B u v ≤ nrm B u * nrm B v := by
  have key : B u v ^ 2 ≤ B u u * B v v := by
    by_cases hv : B v v = 0
    · have k : ∀ c : ℝ, 0 ≤ B u u + 2 * c * B u v := by
        intro c
        have := h (u + c • v)
        simp only [map_add, map_smul, LinearMap.add_apply, LinearMap.smul_apply, smul_eq_mul, s v u, hv] at this
        linarith
      by_contra hne
      have hne : B u v ≠ 0 := by
        intro h0
        apply hne
        rw [h0, hv]
        simp
      have := k (-(B u u + 1) / (2 * B u v))
      field_simp at this
      linarith
    · have hpos : 0 < B v v := lt_of_le_of_ne (h v) (Ne.symm hv)
      have := h ((B v v) • u - (B u v) • v)
      simp only [map_sub, map_smul, LinearMap.sub_apply, LinearMap.smul_apply, smul_eq_mul, s v u] at this
      have : 0 ≤ B v v * (B u u * B v v - B u v ^ 2) := by nlinarith
      nlinarith [(mul_nonneg_iff_of_pos_left hpos).1 this]
  have e : nrm B u * nrm B v = Real.sqrt (B u u * B v v) := (Real.sqrt_mul (h u) _).symm
  rw [e]
  exact Real.le_sqrt_of_sq_le key

theorem nrm_add_le {B : V →ₗ[ℝ] V →ₗ[ℝ] ℝ} (s : ∀ u v, B u v = B v u) (h : ∀ u, 0 ≤ B u u) (u v : V) :
    nrm B (u + v) ≤ nrm B u + nrm B v := by
  have c := form_le s h u v
  have hu := nrm_sq h u
  have hv := nrm_sq h v
  apply Real.sqrt_le_iff.2
  refine ⟨add_nonneg (nrm_nonneg _ _) (nrm_nonneg _ _), ?_⟩
  simp only [map_add, LinearMap.add_apply, s v u]
  nlinarith

theorem nrm_smul (B : V →ₗ[ℝ] V →ₗ[ℝ] ℝ) (c : ℝ) (u : V) : nrm B (c • u) = |c| * nrm B u := by
  unfold nrm
  rw [map_smul, map_smul, LinearMap.smul_apply, smul_eq_mul, smul_eq_mul, ← mul_assoc, ← sq,
    Real.sqrt_mul (sq_nonneg c), Real.sqrt_sq_eq_abs]

/-- One implicit solve does not enlarge. -/
theorem resolvent_le {B : V →ₗ[ℝ] V →ₗ[ℝ] ℝ} {Z : V →ₗ[ℝ] V} (h : Diss B Z) {a : ℝ} (ha : 0 ≤ a) (v : V) :
    nrm B v ≤ nrm B (v - a • Z v) := by
  rw [nrm_le_iff h.nonneg]
  have d := mul_nonneg ha (neg_nonneg.2 (h.diss v))
  have n := mul_nonneg (sq_nonneg a) (h.nonneg (Z v))
  simp only [map_sub, map_smul, LinearMap.sub_apply, LinearMap.smul_apply, smul_eq_mul, h.symm (Z v) v]
  nlinarith

/-- A polynomial of degree two over the cube of the denominator. -/
theorem rational_le {B : V →ₗ[ℝ] V →ₗ[ℝ] ℝ} {Z : V →ₗ[ℝ] V} (h : Diss B Z) {a : ℝ} (ha : 0 ≤ a) (e0 e1 e2 C : ℝ)
    (hC : |e0| + |e1| + |e2| ≤ C) (v : V) :
    nrm B (e0 • v + e1 • (v - a • Z v) + e2 • (v - (2 * a) • Z v + (a ^ 2) • Z (Z v))) ≤
      C * nrm B (v - (3 * a) • Z v + (3 * a ^ 2) • Z (Z v) - (a ^ 3) • Z (Z (Z v))) := by
  obtain ⟨q1, h1⟩ : ∃ q, q = v - a • Z v := ⟨_, rfl⟩
  obtain ⟨q2, h2⟩ : ∃ q, q = q1 - a • Z q1 := ⟨_, rfl⟩
  obtain ⟨q3, h3⟩ : ∃ q, q = q2 - a • Z q2 := ⟨_, rfl⟩
  have i2 : v - (2 * a) • Z v + (a ^ 2) • Z (Z v) = q2 := by
    rw [h2, h1]
    simp only [map_sub, map_smul]
    module
  have i3 : v - (3 * a) • Z v + (3 * a ^ 2) • Z (Z v) - (a ^ 3) • Z (Z (Z v)) = q3 := by
    rw [h3, h2, h1]
    simp only [map_sub, map_smul]
    module
  rw [i2, i3, ← h1]
  have r1 : nrm B v ≤ nrm B q1 := h1 ▸ resolvent_le h ha v
  have r2 : nrm B q1 ≤ nrm B q2 := h2 ▸ resolvent_le h ha q1
  have r3 : nrm B q2 ≤ nrm B q3 := h3 ▸ resolvent_le h ha q2
  have t1 := nrm_add_le h.symm h.nonneg (e0 • v + e1 • q1) (e2 • q2)
  have t2 := nrm_add_le h.symm h.nonneg (e0 • v) (e1 • q1)
  rw [nrm_smul] at t1
  rw [nrm_smul, nrm_smul] at t2
  have m0 := mul_le_mul_of_nonneg_left (r1.trans (r2.trans r3)) (abs_nonneg e0)
  have m1 := mul_le_mul_of_nonneg_left (r2.trans r3) (abs_nonneg e1)
  have m2 := mul_le_mul_of_nonneg_left r3 (abs_nonneg e2)
  have m := mul_le_mul_of_nonneg_right hC (nrm_nonneg B q3)
  linarith

theorem backward_taylor {B : V →ₗ[ℝ] V →ₗ[ℝ] ℝ} {Z : V →ₗ[ℝ] V} (h : Diss B Z) {x y : V} (e : y = x + Z y) :
    nrm B (y - (x + Z x)) ≤ nrm B (Z (Z x)) := by
  have := resolvent_le h zero_le_one (y - (x + Z x))
  have hy : Z y = y - x := by rw [eq_sub_iff_add_eq, add_comm]; exact e.symm
  have r : y - (x + Z x) - (1 : ℝ) • Z (y - (x + Z x)) = Z (Z x) := by
    rw [map_sub, map_add, hy]
    module
  rwa [r] at this

theorem midpoint_taylor {B : V →ₗ[ℝ] V →ₗ[ℝ] ℝ} {Z : V →ₗ[ℝ] V} (h : Diss B Z) {x y m : V}
    (e1 : m = x + (1 / 2 : ℝ) • Z m) (e : y = x + Z m) :
    nrm B (y - (x + Z x + (1 / 2 : ℝ) • Z (Z x))) ≤ 1 / 4 * nrm B (Z (Z (Z x))) := by
  have := resolvent_le h (by norm_num : (0 : ℝ) ≤ 1 / 2) (y - (x + Z x + (1 / 2 : ℝ) • Z (Z x)))
  have hx : x = m - (1 / 2 : ℝ) • Z m := eq_sub_of_add_eq e1.symm
  have r : y - (x + Z x + (1 / 2 : ℝ) • Z (Z x)) - (1 / 2 : ℝ) • Z (y - (x + Z x + (1 / 2 : ℝ) • Z (Z x))) =
      (1 / 4 : ℝ) • Z (Z (Z x)) := by
    rw [e, hx]
    simp only [map_sub, map_add, map_smul]
    module
  rw [r, nrm_smul, abs_of_nonneg (by norm_num)] at this
  exact this

/-- SDIRK23 with a coefficient close to that of the L-stable variant. -/
theorem sdirk23_taylor {B : V →ₗ[ℝ] V →ₗ[ℝ] ℝ} {Z : V →ₗ[ℝ] V} (h : Diss B Z) {g : ℝ}
    (l : 0.29 ≤ g) (u : g ≤ 0.3)
    {x y1 y2 y : V} (e1 : y1 = x + g • Z y1) (e2 : y2 = x + (1 - 2 * g) • Z y1 + g • Z y2)
    (e : y = x + (1 / 2 : ℝ) • Z y1 + (1 / 2 : ℝ) • Z y2) :
    nrm B (y - (x + Z x + (1 / 2 : ℝ) • Z (Z x))) ≤ 1 * nrm B (Z (Z (Z x))) := by
  obtain ⟨p, hp⟩ : ∃ p, p * (1 - 2 * g) = 1 := ⟨_, inv_mul_cancel₀ (by linarith)⟩
  have i1 : g • Z y1 = y1 - x := by rw [eq_sub_iff_add_eq, add_comm]; exact e1.symm
  have f2 : p • (y2 - y1) = Z y1 + g • Z (p • (y2 - y1)) := by
    have : y2 - y1 = (1 - 2 * g) • Z y1 + g • Z (y2 - y1) := by
      rw [map_sub, smul_sub, i1]
      conv_lhs => rw [e2]
      module
    conv_lhs => rw [this]
    rw [smul_add, smul_smul, hp, one_smul, map_smul, smul_comm]
  obtain ⟨u2, hu2⟩ : ∃ u, u = p • (y2 - y1) := ⟨_, rfl⟩
  rw [← hu2] at f2
  have y2e : y2 = y1 + (1 - 2 * g) • u2 := by
    rw [hu2, smul_smul, mul_comm, hp]
    module
  obtain ⟨w, hw⟩ : ∃ w, w = y1 + g • u2 := ⟨_, rfl⟩
  have zw : u2 = Z w := by
    rw [hw, map_add, map_smul]
    exact f2
  have y1e : y1 = w - g • Z w := by
    rw [← zw, hw]
    module
  have hx : x = w - (2 * g) • Z w + (g ^ 2) • Z (Z w) := by
    have : x = y1 - g • Z y1 := eq_sub_of_add_eq e1.symm
    rw [this, y1e, map_sub, map_smul]
    module
  rw [y2e, zw, y1e] at e
  obtain ⟨v, hv⟩ : ∃ v, v = Z (Z (Z w)) := ⟨_, rfl⟩
  obtain ⟨q, hq⟩ : ∃ q, q = v - g • Z v := ⟨_, rfl⟩
  have hz : Z (Z (Z x)) = q - g • Z q := by
    rw [hq, hv, hx]
    simp only [map_add, map_sub, map_smul]
    module
  have hd : y - (x + Z x + (1 / 2 : ℝ) • Z (Z x)) = (g / 2 - g ^ 2) • v + (g / 2) • q := by
    rw [hq, hv, e, hx]
    simp only [map_add, map_sub, map_smul]
    module
  rw [hd, hz]
  have r1 : nrm B v ≤ nrm B q := hq ▸ resolvent_le h (by linarith) v
  have r2 := resolvent_le h (by linarith : 0 ≤ g) q
  have t := nrm_add_le h.symm h.nonneg ((g / 2 - g ^ 2) • v) ((g / 2) • q)
  rw [nrm_smul, nrm_smul, abs_of_nonneg (by nlinarith : 0 ≤ g / 2 - g ^ 2), abs_of_nonneg (by linarith : 0 ≤ g / 2)] at t
  have m0 := mul_le_mul_of_nonneg_left (r1.trans r2) (by nlinarith : 0 ≤ g / 2 - g ^ 2)
  have m1 := mul_le_mul_of_nonneg_left r2 (by linarith : 0 ≤ g / 2)
  have m2 := mul_le_mul_of_nonneg_right (by nlinarith : g / 2 - g ^ 2 + g / 2 ≤ 1) (nrm_nonneg B (q - g • Z q))
  linarith

theorem sdirk33_taylor {B : V →ₗ[ℝ] V →ₗ[ℝ] ℝ} {Z : V →ₗ[ℝ] V} {a b c : ℝ} (hc : Is33 a b c) (h : Diss B Z) {x y1 y2 y3 : V}
    (e1 : y1 = x + a • Z y1) (e2 : y2 = x + (c - a) • Z y1 + a • Z y2)
    (e3 : y3 = x + b • Z y1 + (1 - a - b) • Z y2 + a • Z y3) :
    nrm B (y3 - (x + Z x + (1 / 2 : ℝ) • Z (Z x) + (1 / 6 : ℝ) • Z (Z (Z x)))) ≤ 1 * nrm B (Z (Z (Z (Z x)))) := by
  obtain ⟨w, hx, hy⟩ := sdirk33_root hc e1 e2 e3
  have l := hc.lo
  have u := hc.hi
  have key := rational_le h (by linarith : 0 ≤ a) (a ^ 3 - a ^ 2 + a / 6) (-a ^ 2 / 2 + a / 6) (a / 6) 1 (by
    obtain ⟨l2, u2⟩ := hc.powers
    have c3 : a ^ 3 = 3 * a ^ 2 - 3 / 2 * a + 1 / 6 := by linarith [hc.cubic]
    have h0 : |a ^ 3 - a ^ 2 + a / 6| ≤ 1 / 3 := abs_le.2 ⟨by linarith, by linarith⟩
    have h1 : |-a ^ 2 / 2 + a / 6| ≤ 1 / 3 := abs_le.2 ⟨by linarith, by linarith⟩
    have h2 : |a / 6| ≤ 1 / 3 := abs_le.2 ⟨by linarith, by linarith⟩
    linarith) (Z (Z (Z (Z w))))
  have hz : Z (Z (Z (Z x))) = Z (Z (Z (Z w))) - (3 * a) • Z (Z (Z (Z (Z w)))) + (3 * a ^ 2) • Z (Z (Z (Z (Z (Z w))))) -
      (a ^ 3) • Z (Z (Z (Z (Z (Z (Z w)))))) := by
    rw [hx]
    simp only [map_add, map_sub, map_smul]
  rw [← hz] at key
  convert key using 2
  rw [hy, hx]
  simp only [map_add, map_sub, map_smul]
  linear_combination (norm := module) hc.cubic • Z (Z (Z w))

theorem Is34.last {a b : ℝ} (h : Is34 a b) : b * (1 - 4 * a) * (1 / 2 - a) = 1 / 6 - a + a ^ 2 := by
  have : (2 * a - 1) ≠ 0 := by linarith [h.lo]
  apply mul_left_cancel₀ this
  linear_combination (4 * a - 1) / 12 * h.weight - 1 / 12 * h.cubic

theorem sdirk34_taylor {B : V →ₗ[ℝ] V →ₗ[ℝ] ℝ} {Z : V →ₗ[ℝ] V} (h : Diss B Z) {a b : ℝ} (hc : Is34 a b)
    {x y1 y2 y3 y : V} (e1 : y1 = x + a • Z y1) (e2 : y2 = x + (1 / 2 - a) • Z y1 + a • Z y2)
    (e3 : y3 = x + (2 * a) • Z y1 + (1 - 4 * a) • Z y2 + a • Z y3)
    (e : y = x + b • Z y1 + (1 - 2 * b) • Z y2 + b • Z y3) :
    nrm B (y - (x + Z x + (1 / 2 : ℝ) • Z (Z x) + (1 / 6 : ℝ) • Z (Z (Z x)) + (1 / 24 : ℝ) • Z (Z (Z (Z x))))) ≤
      1 * nrm B (Z (Z (Z (Z (Z x))))) := by
  have l := hc.lo
  have u := hc.hi
  obtain ⟨p, hp⟩ : ∃ p, p * (1 / 2 - a) = 1 := ⟨_, inv_mul_cancel₀ (by linarith)⟩
  obtain ⟨q, hq⟩ : ∃ q, q * ((1 - 4 * a) * (1 / 2 - a)) = 1 :=
    ⟨_, inv_mul_cancel₀ (mul_ne_zero (by linarith) (by linarith))⟩
  have i1 : a • Z y1 = y1 - x := by rw [eq_sub_iff_add_eq, add_comm]; exact e1.symm
  have f2 : p • (y2 - y1) = Z y1 + a • Z (p • (y2 - y1)) := by
    have : y2 - y1 = (1 / 2 - a) • Z y1 + a • Z (y2 - y1) := by
      rw [map_sub, smul_sub, i1]
      conv_lhs => rw [e2]
      module
    conv_lhs => rw [this]
    rw [smul_add, smul_smul, hp, one_smul, map_smul, smul_comm]
  obtain ⟨u2, hu2⟩ : ∃ u, u = p • (y2 - y1) := ⟨_, rfl⟩
  rw [← hu2] at f2
  have y2e : y2 = y1 + (1 / 2 - a) • u2 := by
    rw [hu2, smul_smul, mul_comm, hp]
    module
  have f3 : q • (y3 - y1 - (1 - 2 * a) • u2) = Z u2 + a • Z (q • (y3 - y1 - (1 - 2 * a) • u2)) := by
    have : y3 - y1 - (1 - 2 * a) • u2 = ((1 - 4 * a) * (1 / 2 - a)) • Z u2 + a • Z (y3 - y1 - (1 - 2 * a) • u2) := by
      have z1 : Z y1 = u2 - a • Z u2 := eq_sub_of_add_eq f2.symm
      have hy2 : Z y2 = Z y1 + (1 / 2 - a) • Z u2 := by rw [y2e, map_add, map_smul]
      rw [map_sub, map_sub, map_smul, smul_sub, smul_sub, i1]
      conv_lhs => rw [e3, hy2, z1]
      module
    conv_lhs => rw [this]
    rw [smul_add, smul_smul, hq, one_smul, map_smul, smul_comm]
  obtain ⟨u3, hu3⟩ : ∃ u, u = q • (y3 - y1 - (1 - 2 * a) • u2) := ⟨_, rfl⟩
  rw [← hu3] at f3
  have y3e : y3 = y1 + (1 - 2 * a) • u2 + ((1 - 4 * a) * (1 / 2 - a)) • u3 := by
    rw [hu3, smul_smul, mul_comm _ q, hq]
    module
  obtain ⟨w, k1, k2, k3, hx⟩ := common_root e1 f2 f3
  rw [y3e, y2e, k1, k2, k3] at e
  have key := rational_le h (by linarith : 0 ≤ a) (a ^ 3 / 2 - a ^ 2 / 3 + a / 24) (-a ^ 2 / 6 + a / 24) (a / 24) 1 (by
    have c3 : a ^ 3 = 3 / 2 * a ^ 2 - 1 / 2 * a + 1 / 24 := by linarith [hc.cubic]
    have l2 : 1.12 ≤ a ^ 2 := by nlinarith
    have u2 : a ^ 2 ≤ 1.145 := by nlinarith
    have h0 : |a ^ 3 / 2 - a ^ 2 / 3 + a / 24| ≤ 1 / 3 := abs_le.2 ⟨by linarith, by linarith⟩
    have h1 : |-a ^ 2 / 6 + a / 24| ≤ 1 / 3 := abs_le.2 ⟨by linarith, by linarith⟩
    have h2 : |a / 24| ≤ 1 / 3 := abs_le.2 ⟨by linarith, by linarith⟩
    linarith) (Z (Z (Z (Z (Z w)))))
  have hz : Z (Z (Z (Z (Z x)))) = Z (Z (Z (Z (Z w)))) - (3 * a) • Z (Z (Z (Z (Z (Z w))))) +
      (3 * a ^ 2) • Z (Z (Z (Z (Z (Z (Z w)))))) - (a ^ 3) • Z (Z (Z (Z (Z (Z (Z (Z w))))))) := by
    rw [hx]
    simp only [map_add, map_sub, map_smul]
  rw [← hz] at key
  convert key using 2
  rw [e, hx]
  simp only [map_add, map_sub, map_smul]
  have hl := hc.last
  linear_combination (norm := module) hl • Z (Z (Z w)) + hc.cubic • ((1 / 24 : ℝ) • Z (Z (Z (Z w))))

end Dgtd.TimeInt
