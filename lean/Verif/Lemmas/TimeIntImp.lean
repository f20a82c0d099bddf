/-
Implicit integrators for `x' = A x`, with `A` dissipative in a symmetric form: energy of one step, and distance to the
Taylor polynomial.  `Z` is the operator times the step, `f = Z y` the stage slope times the step.
-/
import Verif.Lemmas.TimeInt
import Mathlib.Analysis.Real.Sqrt
import Mathlib.Tactic.NormNum

set_option linter.unusedSectionVars false

namespace Dgtd.TimeInt

variable {V : Type} [AddCommGroup V] [Module ℝ V]

/-! ### Energy of one step -/

/-- A two-stage method of the family of SDIRK23; `g ≥ 1/4`. -/
theorem sdirk23_energy {B : V →ₗ[ℝ] V →ₗ[ℝ] ℝ} {Z : V →ₗ[ℝ] V} (h : Diss B Z) {g : ℝ} (hg : 1 / 4 ≤ g)
    {x y1 y2 y : V} (e1 : y1 = x + g • Z y1) (e2 : y2 = x + (1 - 2 * g) • Z y1 + g • Z y2)
    (e : y = x + (1 / 2 : ℝ) • Z y1 + (1 / 2 : ℝ) • Z y2) : B y y ≤ B x x := by
  have d1 := h.diss y1
  have d2 := h.diss y2
  have n := mul_nonneg (sub_nonneg.2 hg) (h.nonneg (Z y1 - Z y2))
  have s := h.symm
  generalize Z y1 = f1 at *
  generalize Z y2 = f2 at *
  subst e1 e2 e
  simp only [map_add, map_sub, map_smul, LinearMap.add_apply, LinearMap.sub_apply, LinearMap.smul_apply,
    smul_eq_mul] at *
  simp only [s f1 x, s f2 x, s f2 f1] at *
  linarith

theorem backward_energy {B : V →ₗ[ℝ] V →ₗ[ℝ] ℝ} {Z : V →ₗ[ℝ] V} (h : Diss B Z)
    {x y : V} (e : y = x + Z y) : B y y ≤ B x x := by
  have d1 := h.diss y
  have n := h.nonneg (Z y)
  have s := h.symm
  generalize Z y = f1 at *
  subst e
  simp only [map_add, LinearMap.add_apply] at *
  simp only [s f1 x] at *
  linarith

/-- Implicit midpoint and, for a linear operator, trapezoidal rule. -/
theorem midpoint_energy {B : V →ₗ[ℝ] V →ₗ[ℝ] ℝ} {Z : V →ₗ[ℝ] V} (symm : ∀ u v, B u v = B v u)
    {x y m : V} (e1 : m = x + (1 / 2 : ℝ) • Z m) (e : y = x + Z m) : B y y = B x x + 2 * B m (Z m) := by
  have s := symm
  generalize Z m = f1 at *
  subst e e1
  simp only [map_add, map_smul, LinearMap.add_apply, LinearMap.smul_apply, smul_eq_mul] at *
  simp only [s f1 x] at *
  ring

/-- Coefficients of SDIRK34. -/
structure Is34 (a b : ℝ) : Prop where
  cubic : 24 * a ^ 3 - 36 * a ^ 2 + 12 * a - 1 = 0
  weight : 6 * (2 * a - 1) ^ 2 * b = 1
  lo : 1.06 ≤ a
  hi : a ≤ 1.07
  b_pos : 0 ≤ b
  b_lt : b ≤ 1 / 4

theorem Is34.weight' {a b : ℝ} (h : Is34 a b) : 2 * a - 1 = 4 * (3 * a - 1) * b := by
  linear_combination (-(2 * a - 1)) * h.weight + 2 * b * h.cubic

theorem sdirk34_energy {B : V →ₗ[ℝ] V →ₗ[ℝ] ℝ} {Z : V →ₗ[ℝ] V} (h : Diss B Z) {a b : ℝ} (hc : Is34 a b)
    {x y1 y2 y3 y : V} (e1 : y1 = x + a • Z y1) (e2 : y2 = x + (1 / 2 - a) • Z y1 + a • Z y2)
    (e3 : y3 = x + (2 * a) • Z y1 + (1 - 4 * a) • Z y2 + a • Z y3)
    (e : y = x + b • Z y1 + (1 - 2 * b) • Z y2 + b • Z y3) : B y y ≤ B x x := by
  have d1 := mul_nonneg hc.b_pos (neg_nonneg.2 (h.diss y1))
  have d2 := mul_nonneg (by linarith [hc.b_lt] : 0 ≤ 1 - 2 * b) (neg_nonneg.2 (h.diss y2))
  have d3 := mul_nonneg hc.b_pos (neg_nonneg.2 (h.diss y3))
  have n := mul_nonneg (mul_nonneg hc.b_pos (by linarith [hc.lo, hc.b_lt] : 0 ≤ 2 * a - b))
    (h.nonneg (Z y1 - (2 : ℝ) • Z y2 + Z y3))
  have s := h.symm
  have w := hc.weight'
  generalize Z y1 = f1 at *
  generalize Z y2 = f2 at *
  generalize Z y3 = f3 at *
  subst e1 e2 e3 e
  simp only [map_add, map_sub, map_smul, LinearMap.add_apply, LinearMap.sub_apply, LinearMap.smul_apply,
    smul_eq_mul] at *
  simp only [s f1 x, s f2 x, s f3 x, s f2 f1, s f3 f1, s f3 f2] at *
  have k1 : (2 * a - 1) * B f1 f2 = 4 * (3 * a - 1) * b * B f1 f2 := by rw [w]
  have k2 : (2 * a - 1) * B f2 f2 = 4 * (3 * a - 1) * b * B f2 f2 := by rw [w]
  linarith

/-- Coefficients of SDIRK33: the values the constants of the library approximate. -/
structure Is33 (a b c : ℝ) : Prop where
  cubic : a ^ 3 - 3 * a ^ 2 + 3 / 2 * a - 1 / 6 = 0
  lo : 0.43586 ≤ a
  hi : a ≤ 0.43587
  eb : b = -(6 * a ^ 2 - 16 * a + 1) / 4
  ec : c = (1 + a) / 2

/-- Three solves with the same operator have a common root. -/
theorem common_root {Z : V →ₗ[ℝ] V} {a : ℝ} {x y1 u2 u3 : V} (e1 : y1 = x + a • Z y1) (e2 : u2 = Z y1 + a • Z u2)
    (e3 : u3 = Z u2 + a • Z u3) :
    ∃ w, y1 = w - (2 * a) • Z w + (a ^ 2) • Z (Z w) ∧ u2 = Z w - a • Z (Z w) ∧ u3 = Z (Z w) ∧
      x = w - (3 * a) • Z w + (3 * a ^ 2) • Z (Z w) - (a ^ 3) • Z (Z (Z w)) := by
  refine ⟨y1 + (2 * a) • u2 + (a ^ 2) • u3, ?_⟩
  have z1 : Z y1 = u2 - a • Z u2 := eq_sub_of_add_eq e2.symm
  have z2 : Z u2 = u3 - a • Z u3 := eq_sub_of_add_eq e3.symm
  have hx : x = y1 - a • Z y1 := eq_sub_of_add_eq e1.symm
  have zz : Z (Z u2) = Z u3 - a • Z (Z u3) := by rw [z2, map_sub, map_smul]
  have w1 : Z (y1 + (2 * a) • u2 + (a ^ 2) • u3) = u2 + a • u3 := by
    simp only [map_add, map_smul, z1, z2]
    module
  have w2 : Z (Z (y1 + (2 * a) • u2 + (a ^ 2) • u3)) = u3 := by
    rw [w1, map_add, map_smul, z2]
    module
  rw [w2, w1]
  refine ⟨by module, by module, rfl, ?_⟩
  rw [hx, z1, z2]
  module

section s33
variable {a b c : ℝ}

theorem Is33.kappa (h : Is33 a b c) : (1 - a - b) * (c - a) = a ^ 2 - 2 * a + 1 / 2 := by
  rw [h.eb, h.ec]
  linear_combination (-3 / 4 : ℝ) * h.cubic

/-- The three stages of SDIRK33 through a common root. -/
theorem sdirk33_root (h : Is33 a b c) {Z : V →ₗ[ℝ] V} {x y1 y2 y3 : V} (e1 : y1 = x + a • Z y1)
    (e2 : y2 = x + (c - a) • Z y1 + a • Z y2) (e3 : y3 = x + b • Z y1 + (1 - a - b) • Z y2 + a • Z y3) :
    ∃ w, x = w - (3 * a) • Z w + (3 * a ^ 2) • Z (Z w) - (a ^ 3) • Z (Z (Z w)) ∧
      y3 = w + (1 - 3 * a) • Z w + (1 / 2 - 3 * a + 3 * a ^ 2) • Z (Z w) := by
  have hk := h.kappa
  have hca : c - a ≠ 0 := by
    have := h.ec; have := h.hi
    intro h0
    rw [h.ec] at h0
    linarith
  have hk0 : (1 - a - b) * (c - a) ≠ 0 := by
    rw [hk]
    have := h.lo; have := h.hi
    nlinarith
  obtain ⟨p, hp⟩ : ∃ p, p * (c - a) = 1 := ⟨(c - a)⁻¹, inv_mul_cancel₀ hca⟩
  obtain ⟨q, hq⟩ : ∃ q, q * ((1 - a - b) * (c - a)) = 1 := ⟨_, inv_mul_cancel₀ hk0⟩
  have i1 : a • Z y1 = y1 - x := by rw [eq_sub_iff_add_eq, add_comm]; exact e1.symm
  have f2 : p • (y2 - y1) = Z y1 + a • Z (p • (y2 - y1)) := by
    have : y2 - y1 = (c - a) • Z y1 + a • Z (y2 - y1) := by
      rw [map_sub, smul_sub, i1]
      conv_lhs => rw [e2]
      module
    conv_lhs => rw [this]
    rw [smul_add, smul_smul, hp, one_smul, map_smul, smul_comm]
  obtain ⟨u2, hu2⟩ : ∃ u, u = p • (y2 - y1) := ⟨_, rfl⟩
  rw [← hu2] at f2
  have y2e : y2 = y1 + (c - a) • u2 := by
    rw [hu2, smul_smul, mul_comm, hp]
    module
  have f3 : q • (y3 - y1 - (1 - a) • u2) = Z u2 + a • Z (q • (y3 - y1 - (1 - a) • u2)) := by
    have : y3 - y1 - (1 - a) • u2 = ((1 - a - b) * (c - a)) • Z u2 + a • Z (y3 - y1 - (1 - a) • u2) := by
      have z1 : Z y1 = u2 - a • Z u2 := eq_sub_of_add_eq f2.symm
      have hy2 : Z y2 = Z y1 + (c - a) • Z u2 := by rw [y2e, map_add, map_smul]
      rw [map_sub, map_sub, map_smul, smul_sub, smul_sub, i1]
      conv_lhs => rw [e3, hy2, z1]
      module
    conv_lhs => rw [this]
    rw [smul_add, smul_smul, hq, one_smul, map_smul, smul_comm]
  obtain ⟨u3, hu3⟩ : ∃ u, u = q • (y3 - y1 - (1 - a) • u2) := ⟨_, rfl⟩
  rw [← hu3] at f3
  have y3e : y3 = y1 + (1 - a) • u2 + (a ^ 2 - 2 * a + 1 / 2) • u3 := by
    rw [← hk, hu3, smul_smul, mul_comm, hq]
    module
  obtain ⟨w, k1, k2, k3, k4⟩ := common_root e1 f2 f3
  refine ⟨w, k4, ?_⟩
  rw [y3e, k1, k2, k3]
  module

theorem Is33.powers (h : Is33 a b c) : 0.189973 ≤ a ^ 2 ∧ a ^ 2 ≤ 0.189983 := by
  have := h.lo; have := h.hi
  constructor <;> nlinarith

theorem sdirk33_energy (h : Is33 a b c) {B : V →ₗ[ℝ] V →ₗ[ℝ] ℝ} {Z : V →ₗ[ℝ] V} (hd : Diss B Z) {x y1 y2 y3 : V}
    (e1 : y1 = x + a • Z y1) (e2 : y2 = x + (c - a) • Z y1 + a • Z y2)
    (e3 : y3 = x + b • Z y1 + (1 - a - b) • Z y2 + a • Z y3) : B y3 y3 ≤ B x x := by
  obtain ⟨w, hx, hy⟩ := sdirk33_root h e1 e2 e3
  clear e1 e2 e3
  obtain ⟨l2, u2⟩ := h.powers
  have l1 := h.lo
  have u1 := h.hi
  have hk : 8 * a ^ 3 + (1 - 3 * a) * (1 / 2 - 3 * a + 3 * a ^ 2) = (1 / 2 - 3 * a) ^ 2 + 1 / 12 := by
    linear_combination (-1 : ℝ) * h.cubic
  have hal : 0 ≤ 3 * a ^ 4 - (1 / 2 - 3 * a + 3 * a ^ 2) ^ 2 := by
    have : 3 * a ^ 4 - (1 / 2 - 3 * a + 3 * a ^ 2) ^ 2 = -3 * a ^ 2 + 2 * a - 1 / 4 := by
      linear_combination (-6 * a) * h.cubic
    rw [this]
    linarith
  obtain ⟨z1, i1⟩ : ∃ z, z = Z w := ⟨_, rfl⟩
  obtain ⟨z2, i2⟩ : ∃ z, z = Z z1 := ⟨_, rfl⟩
  obtain ⟨z3, i3⟩ : ∃ z, z = Z z2 := ⟨_, rfl⟩
  have d0 := hd.diss (w + (1 / 2 - 3 * a) • z1 + (a ^ 3) • z2)
  have d1 := hd.diss (z1 - (6 * a ^ 3) • z2)
  have d2 := mul_nonneg (mul_nonneg (by positivity : 0 ≤ a ^ 5) (by linarith : 0 ≤ 3 - 4 * a)) (neg_nonneg.2 (hd.diss z2))
  have n2 := mul_nonneg hal (hd.nonneg z2)
  have n3 := mul_nonneg (by positivity : 0 ≤ a ^ 6) (hd.nonneg z3)
  have t := congrArg (· * B z1 z2) hk
  rw [hx, hy]
  clear hx hy
  simp only [map_add, map_sub, map_smul, LinearMap.add_apply, LinearMap.sub_apply, LinearMap.smul_apply, smul_eq_mul,
    ← i1, ← i2, ← i3] at *
  have s := hd.symm
  simp only [s z1 w, s z2 w, s z3 w, s z2 z1, s z3 z1, s z3 z2] at *
  linarith

end s33

end Dgtd.TimeInt
