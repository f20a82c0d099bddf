/-
One step with smooth sources, started from the exact solution.
-/
import Verif.Lemmas.TimeIntDriven

set_option linter.unusedSectionVars false
set_option linter.unusedSimpArgs false

namespace Dgtd.TimeInt

open Implicit Spec

section
variable {V S : Type} [NormedAddCommGroup V] [NormedSpace ℝ V] [FiniteDimensional ℝ V]

/-- `v 0` solves the equations with sources, and has the derivatives that the order `k` of an integrator asks for. -/
structure Driven (k : Nat) (A : V →ₗ[ℝ] V) (src : ℝ → V) (v : Nat → ℝ → V) : Prop where
  smooth : Smooth (k + 1) v
  eq : ∀ s, v 1 s = A (v 0 s) + src s

/-- Bound on the derivatives, and on what the operator makes of them, within `w` of `t`. -/
def Near (k : Nat) (B : V →ₗ[ℝ] V →ₗ[ℝ] ℝ) (A : V →ₗ[ℝ] V) (v : Nat → ℝ → V) (t w K : ℝ) : Prop :=
  ∀ j n, j + n = k + 1 → 2 ≤ n → ∀ s, |s - t| ≤ w → nrm B ((A ^ j) (v n s)) ≤ K

theorem pow_smul_apply (A : V →ₗ[ℝ] V) (dt : ℝ) (j : Nat) (x : V) : ((dt • A) ^ j) x = (dt ^ j) • (A ^ j) x := by
  rw [smul_pow, LinearMap.smul_apply]

theorem map_quad (A : V →ₗ[ℝ] V) (v : Nat → ℝ → V) (t dt : ℝ) (l : List (ℝ × ℝ × ℝ)) :
    A (quad v t dt l) = quad (fun n s => A (v n s)) t dt l := by
  induction l with
  | nil => simp [quad]
  | cons x l ih =>
    simp only [quad, List.map_cons, List.sum_cons, map_add, map_smul] at ih ⊢
    rw [ih]

/-- What the operator makes of the remainder of a formula. -/
theorem zquad_le {k : Nat} {B : V →ₗ[ℝ] V →ₗ[ℝ] ℝ} {A : V →ₗ[ℝ] V} (hd : Diss B A) {v : Nat → ℝ → V}
    (hv : Smooth (k + 1) v) {t dt K : ℝ} (hK : Near k B A v t (11 / 10 * dt) K) (hdt : 0 ≤ dt) (j m : Nat) (hj : j + m = k)
    (h1 : 1 ≤ m) (l : List (ℝ × ℝ × ℝ)) (hl : ∀ x ∈ l, |x.1| ≤ 11 / 10) (h0 : ∀ i ≤ m, moment l i = 0) (C : ℝ)
    (hC : gross l (m + 1) ≤ C * ((m + 1).factorial : ℝ)) :
    nrm B (((dt • A) ^ j) (quad v t dt l)) ≤ C * (dt ^ (k + 1) * K) := by
  have hv' : Smooth (m + 1) fun n s => (A ^ j) (v n s) := by
    have : Smooth (m + 1) v := fun n hn => hv n (by omega)
    exact this.map (A ^ j)
  have := quad_le hd.symm hd.nonneg m hv' hdt (r := 11 / 10) (fun s hs => hK j (m + 1) (by omega) (by omega) s hs) l hl h0
    (by norm_num) hC
  rw [pow_smul_apply, nrm_smul, abs_of_nonneg (pow_nonneg hdt j), map_quad]
  calc dt ^ j * nrm B (quad (fun n s => (A ^ j) (v n s)) t dt l) ≤ dt ^ j * (C * (dt ^ (m + 1) * K)) :=
        mul_le_mul_of_nonneg_left this (pow_nonneg hdt j)
    _ = C * (dt ^ (k + 1) * K) := by rw [← hj]; ring

theorem Near.nonneg {k : Nat} (h1 : 1 ≤ k) {B : V →ₗ[ℝ] V →ₗ[ℝ] ℝ} {A : V →ₗ[ℝ] V} {v : Nat → ℝ → V} {t w K : ℝ}
    (h : Near k B A v t w K) (hw : 0 ≤ w) : 0 ≤ K :=
  (nrm_nonneg _ _).trans (h 0 (k + 1) (by omega) (by omega) t (by rwa [sub_self, abs_zero]))

/-- Solving an implicit stage does not enlarge. -/
theorem stage_le {B : V →ₗ[ℝ] V →ₗ[ℝ] ℝ} {Z : V →ₗ[ℝ] V} (h : Diss B Z) {a : ℝ} (ha : 0 ≤ a) {E w : V} (e : E = w + a • Z E) :
    nrm B E ≤ nrm B w := by
  have := resolvent_le h ha E
  rwa [show E - a • Z E = w from sub_eq_of_eq_add e] at this

theorem tri {B : V →ₗ[ℝ] V →ₗ[ℝ] ℝ} {Z : V →ₗ[ℝ] V} (h : Diss B Z) {u v : V} {x y : ℝ} (hu : nrm B u ≤ x) (hv : nrm B v ≤ y) :
    nrm B (u + v) ≤ x + y := (nrm_add_le h.symm h.nonneg u v).trans (add_le_add hu hv)

theorem scale {B : V →ₗ[ℝ] V →ₗ[ℝ] ℝ} {u : V} {x : ℝ} (hu : nrm B u ≤ x) {c C : ℝ} (hc : |c| ≤ C) :
    nrm B (c • u) ≤ C * x := by
  rw [nrm_smul]
  exact mul_le_mul hc hu (nrm_nonneg _ _) ((abs_nonneg c).trans hc)

variable {B : V →ₗ[ℝ] V →ₗ[ℝ] ℝ} {A : V →ₗ[ℝ] V} {src : ℝ → V} {v : Nat → ℝ → V} {t dt K : ℝ}

theorem backward_driven (hd : Diss B A) (h : Driven 1 A src v) (hdt : 0 ≤ dt) (hK : Near 1 B A v t (11 / 10 * dt) K) {y : V}
    (e : y = v 0 t + ((dt • A) y + dt • src (t + dt))) : nrm B (y - v 0 (t + dt)) ≤ 2 * (dt ^ 2 * K) := by
  have hz := hd.smul hdt
  have r := zquad_le hd h.smooth hK hdt 0 1 rfl le_rfl [(0, 1, 0), (1, -1, 1)]
    (by intro x hx; simp only [List.mem_cons, List.not_mem_nil, or_false] at hx; rcases hx with rfl | rfl <;> norm_num)
    (by intro i hi; interval_cases i <;> norm_num [moment]) 2 (by norm_num [gross, Nat.factorial])
  refine le_trans (stage_le hz zero_le_one (w := quad v t dt [(0, 1, 0), (1, -1, 1)]) ?_) r
  have e1 := h.eq (t + dt)
  simp only [quad, List.map_cons, List.map_nil, List.sum_cons, List.sum_nil, zero_mul, one_mul, add_zero, map_sub,
    LinearMap.smul_apply] at e ⊢
  linear_combination (norm := module) e - dt • e1

theorem trapezoidal_driven (hd : Diss B A) (h : Driven 2 A src v) (hdt : 0 ≤ dt) (hK : Near 2 B A v t (11 / 10 * dt) K) {y : V}
    (e : y = v 0 t + (1 / 2 : ℝ) • ((dt • A) (v 0 t) + dt • src t) + (1 / 2 : ℝ) • ((dt • A) y + dt • src (t + dt))) :
    nrm B (y - v 0 (t + dt)) ≤ 2 * (dt ^ 3 * K) := by
  have hz := hd.smul hdt
  have r := zquad_le hd h.smooth hK hdt 0 2 rfl (by norm_num) [(0, 1, 1 / 2), (1, -1, 1 / 2)]
    (by intro x hx; simp only [List.mem_cons, List.not_mem_nil, or_false] at hx; rcases hx with rfl | rfl <;> norm_num)
    (by intro i hi; interval_cases i <;> norm_num [moment]) 2 (by norm_num [gross, Nat.factorial])
  refine le_trans (stage_le hz (by norm_num : (0 : ℝ) ≤ 1 / 2) (w := quad v t dt [(0, 1, 1 / 2), (1, -1, 1 / 2)]) ?_) r
  have e0 := h.eq t
  have e1 := h.eq (t + dt)
  simp only [quad, List.map_cons, List.map_nil, List.sum_cons, List.sum_nil, zero_mul, one_mul, add_zero, map_sub,
    LinearMap.smul_apply] at e ⊢
  linear_combination (norm := module) e - (dt / 2) • e1 - (dt / 2) • e0

theorem midpoint_driven (hd : Diss B A) (h : Driven 2 A src v) (hdt : 0 ≤ dt) (hK : Near 2 B A v t (11 / 10 * dt) K) {y m : V}
    (e1 : m = v 0 t + (1 / 2 : ℝ) • ((dt • A) m + dt • src (t + dt / 2)))
    (e : y = v 0 t + ((dt • A) m + dt • src (t + dt / 2))) : nrm B (y - v 0 (t + dt)) ≤ 2 * (dt ^ 3 * K) := by
  have hz := hd.smul hdt
  have r1 := zquad_le hd h.smooth hK hdt 1 1 rfl le_rfl [(0, 1, 0), (1 / 2, -1, 1 / 2)]
    (by intro x hx; simp only [List.mem_cons, List.not_mem_nil, or_false] at hx; rcases hx with rfl | rfl <;> norm_num)
    (by intro i hi; interval_cases i <;> norm_num [moment]) 1 (by norm_num [gross, Nat.factorial])
  have r := zquad_le hd h.smooth hK hdt 0 2 rfl (by norm_num) [(0, 1, 0), (1 / 2, 0, 1), (1, -1, 0)]
    (by intro x hx; simp only [List.mem_cons, List.not_mem_nil, or_false] at hx; rcases hx with rfl | rfl | rfl <;> norm_num)
    (by intro i hi; interval_cases i <;> norm_num [moment]) 1 (by norm_num [gross, Nat.factorial])
  rw [pow_one] at r1
  rw [pow_zero, Module.End.one_apply] at r
  obtain ⟨E1, hE1⟩ : ∃ E1, E1 = m - v 0 (t + dt / 2) := ⟨_, rfl⟩
  have q1 : E1 = quad v t dt [(0, 1, 0), (1 / 2, -1, 1 / 2)] + (1 / 2 : ℝ) • (dt • A) E1 := by
    have f := h.eq (t + dt / 2)
    rw [hE1]
    simp only [quad, List.map_cons, List.map_nil, List.sum_cons, List.sum_nil, zero_mul, one_mul, add_zero, map_sub,
      LinearMap.smul_apply, one_div_mul_eq_div] at e1 ⊢
    linear_combination (norm := module) e1 - (dt / 2) • f
  have q2 : (dt • A) E1 = (dt • A) (quad v t dt [(0, 1, 0), (1 / 2, -1, 1 / 2)]) + (1 / 2 : ℝ) • (dt • A) ((dt • A) E1) := by
    rw [← map_smul, ← map_add, ← q1]
  have q : y - v 0 (t + dt) = quad v t dt [(0, 1, 0), (1 / 2, 0, 1), (1, -1, 0)] + (dt • A) E1 := by
    have f := h.eq (t + dt / 2)
    rw [hE1]
    simp only [quad, List.map_cons, List.map_nil, List.sum_cons, List.sum_nil, zero_mul, one_mul, add_zero, map_sub,
      LinearMap.smul_apply, one_div_mul_eq_div] at e ⊢
    linear_combination (norm := module) e - dt • f
  have b2 := (stage_le hz (by norm_num : (0 : ℝ) ≤ 1 / 2) q2).trans r1
  rw [q]
  refine (tri hd r b2).trans (le_of_eq ?_)
  ring

theorem sdirk23_driven (hd : Diss B A) (h : Driven 2 A src v) (hdt : 0 ≤ dt) (hK : Near 2 B A v t (11 / 10 * dt) K) {g : ℝ}
    (l : 0.29 ≤ g) (u : g ≤ 0.3) {y y1 y2 : V}
    (e1 : y1 = v 0 t + g • ((dt • A) y1 + dt • src (t + g * dt)))
    (e2 : y2 = v 0 t + (1 - 2 * g) • ((dt • A) y1 + dt • src (t + g * dt)) + g • ((dt • A) y2 + dt • src (t + (1 - g) * dt)))
    (e : y = v 0 t + (1 / 2 : ℝ) • ((dt • A) y1 + dt • src (t + g * dt)) +
      (1 / 2 : ℝ) • ((dt • A) y2 + dt • src (t + (1 - g) * dt))) : nrm B (y - v 0 (t + dt)) ≤ 2 * (dt ^ 3 * K) := by
  have hz := hd.smul hdt
  have g0 : 0 ≤ g := by linarith
  have cg : |g| ≤ 0.3 := abs_le.2 ⟨by linarith, u⟩
  have cg1 : |1 - g| ≤ 0.71 := abs_le.2 ⟨by linarith, by linarith⟩
  have cg2 : |1 - 2 * g| ≤ 0.42 := abs_le.2 ⟨by linarith, by linarith⟩
  have r1 := zquad_le hd h.smooth hK hdt 1 1 rfl le_rfl [(0, 1, 0), (g, -1, g)]
    (by intro x hx; simp only [List.mem_cons, List.not_mem_nil, or_false] at hx
        rcases hx with rfl | rfl
        · norm_num
        · exact cg.trans (by norm_num))
    (by intro i hi; interval_cases i <;> simp [moment]) 0.135 (by
      simp only [gross, List.map_cons, List.map_nil, List.sum_cons, List.sum_nil]
      calc _ ≤ |1| * |0| ^ 2 + |0| * ((2 : Nat) * |0| ^ 1) + (|-1| * (0.3 : ℝ) ^ 2 + 0.3 * ((2 : Nat) * (0.3 : ℝ) ^ 1) + 0) := by gcongr
        _ ≤ _ := by norm_num [Nat.factorial])
  have r2 := zquad_le hd h.smooth hK hdt 1 1 rfl le_rfl [(0, 1, 0), (g, 0, 1 - 2 * g), (1 - g, -1, g)]
    (by intro x hx; simp only [List.mem_cons, List.not_mem_nil, or_false] at hx
        rcases hx with rfl | rfl | rfl
        · norm_num
        · exact cg.trans (by norm_num)
        · exact cg1.trans (by norm_num))
    (by intro i hi
        interval_cases i <;> simp only [moment, List.map_cons, List.map_nil, List.sum_cons, List.sum_nil] <;> norm_num
        ring) 0.7 (by
      simp only [gross, List.map_cons, List.map_nil, List.sum_cons, List.sum_nil]
      calc _ ≤ |1| * |0| ^ 2 + |0| * ((2 : Nat) * |0| ^ 1) + (|0| * (0.3 : ℝ) ^ 2 + 0.42 * ((2 : Nat) * (0.3 : ℝ) ^ 1) +
            (|-1| * (0.71 : ℝ) ^ 2 + 0.3 * ((2 : Nat) * (0.71 : ℝ) ^ 1) + 0)) := by gcongr
        _ ≤ _ := by norm_num [Nat.factorial])
  have r := zquad_le hd h.smooth hK hdt 0 2 rfl (by norm_num) [(0, 1, 0), (g, 0, 1 / 2), (1 - g, 0, 1 / 2), (1, -1, 0)]
    (by intro x hx; simp only [List.mem_cons, List.not_mem_nil, or_false] at hx
        rcases hx with rfl | rfl | rfl | rfl
        · norm_num
        · exact cg.trans (by norm_num)
        · exact cg1.trans (by norm_num)
        · norm_num)
    (by intro i hi
        interval_cases i <;> simp only [moment, List.map_cons, List.map_nil, List.sum_cons, List.sum_nil] <;> norm_num
        ring) 0.4 (by
      simp only [gross, List.map_cons, List.map_nil, List.sum_cons, List.sum_nil]
      calc _ ≤ |1| * |0| ^ 3 + |0| * ((3 : Nat) * |0| ^ 2) + (|0| * (0.3 : ℝ) ^ 3 + |1 / 2| * ((3 : Nat) * (0.3 : ℝ) ^ 2) +
            (|0| * (0.71 : ℝ) ^ 3 + |1 / 2| * ((3 : Nat) * (0.71 : ℝ) ^ 2) + (|-1| * |1| ^ 3 + |0| * ((3 : Nat) * |1| ^ 2) + 0))) := by gcongr
        _ ≤ _ := by norm_num [Nat.factorial, abs_of_pos])
  rw [pow_one] at r1 r2
  rw [pow_zero, Module.End.one_apply] at r
  obtain ⟨E1, hE1⟩ : ∃ E1, E1 = y1 - v 0 (t + g * dt) := ⟨_, rfl⟩
  obtain ⟨E2, hE2⟩ : ∃ E2, E2 = y2 - v 0 (t + (1 - g) * dt) := ⟨_, rfl⟩
  have f1 := h.eq (t + g * dt)
  have f2 := h.eq (t + (1 - g) * dt)
  have q1 : E1 = quad v t dt [(0, 1, 0), (g, -1, g)] + g • (dt • A) E1 := by
    rw [hE1]
    simp only [quad, List.map_cons, List.map_nil, List.sum_cons, List.sum_nil, zero_mul, one_mul, add_zero, map_sub,
      LinearMap.smul_apply] at e1 ⊢
    linear_combination (norm := module) e1 - (g * dt) • f1
  have q2 : E2 = quad v t dt [(0, 1, 0), (g, 0, 1 - 2 * g), (1 - g, -1, g)] + (1 - 2 * g) • (dt • A) E1 + g • (dt • A) E2 := by
    rw [hE1, hE2]
    simp only [quad, List.map_cons, List.map_nil, List.sum_cons, List.sum_nil, zero_mul, one_mul, add_zero, map_sub,
      LinearMap.smul_apply] at e2 ⊢
    linear_combination (norm := module) e2 - (g * dt) • f2 - ((1 - 2 * g) * dt) • f1
  have q : y - v 0 (t + dt) = quad v t dt [(0, 1, 0), (g, 0, 1 / 2), (1 - g, 0, 1 / 2), (1, -1, 0)] +
      (1 / 2 : ℝ) • (dt • A) E1 + (1 / 2 : ℝ) • (dt • A) E2 := by
    rw [hE1, hE2]
    simp only [quad, List.map_cons, List.map_nil, List.sum_cons, List.sum_nil, zero_mul, one_mul, add_zero, map_sub,
      LinearMap.smul_apply] at e ⊢
    linear_combination (norm := module) e - (dt / 2) • f1 - (dt / 2) • f2
  obtain ⟨Z, hZ⟩ : ∃ Z, Z = dt • A := ⟨_, rfl⟩
  rw [← hZ] at hz q1 q2 q r1 r2
  generalize quad v t dt [(0, 1, 0), (g, -1, g)] = d1 at *
  generalize quad v t dt [(0, 1, 0), (g, 0, 1 - 2 * g), (1 - g, -1, g)] = d2 at *
  generalize quad v t dt [(0, 1, 0), (g, 0, 1 / 2), (1 - g, 0, 1 / 2), (1, -1, 0)] = d at *
  have z1 : Z E1 = Z d1 + g • Z (Z E1) := by rw [← map_smul, ← map_add, ← q1]
  have b1 := (stage_le hz g0 z1).trans r1
  have z2 : Z E2 = (Z d2 + (1 - 2 * g) • Z (Z E1)) + g • Z (Z E2) := by
    have := congrArg Z q2
    simp only [map_add, map_smul] at this
    exact this
  have gi : |1 / g| ≤ 4 := by
    rw [abs_of_nonneg (by positivity), div_le_iff₀ (by linarith)]
    linarith
  have zz : Z (Z E1) = (1 / g) • (Z E1 + (-1 : ℝ) • Z d1) := by
    have hg : g ≠ 0 := by intro h0; rw [h0] at l; norm_num at l
    have : g • Z (Z E1) = Z E1 + (-1 : ℝ) • Z d1 := by linear_combination (norm := module) -(1 : ℝ) • z1
    rw [← this, smul_smul, one_div_mul_cancel hg, one_smul]
  have b3 : nrm B (Z (Z E1)) ≤ 4 * (0.135 * (dt ^ (2 + 1) * K) + 1 * (0.135 * (dt ^ (2 + 1) * K))) := by
    rw [zz]
    exact scale (tri hd b1 (scale r1 (by norm_num))) gi
  have b2 := (stage_le hz g0 z2).trans (tri hd r2 (scale b3 cg2))
  rw [q]
  refine (tri hd (tri hd r (scale b1 (by norm_num [abs_of_pos] : |(1 / 2 : ℝ)| ≤ 1 / 2)))
    (scale b2 (by norm_num [abs_of_pos] : |(1 / 2 : ℝ)| ≤ 1 / 2))).trans ?_
  have : 0 ≤ dt ^ (2 + 1) * K := mul_nonneg (pow_nonneg hdt _) (hK.nonneg (by norm_num) (by positivity))
  show _ ≤ 2 * (dt ^ (2 + 1) * K)
  generalize dt ^ (2 + 1) * K = X at this ⊢
  linarith

theorem sdirk33_driven (hd : Diss B A) (h : Driven 3 A src v) (hdt : 0 ≤ dt) (hK : Near 3 B A v t (11 / 10 * dt) K) {a b c : ℝ}
    (hc : Is33 a b c) {y y1 y2 : V}
    (e1 : y1 = v 0 t + a • ((dt • A) y1 + dt • src (t + a * dt)))
    (e2 : y2 = v 0 t + (c - a) • ((dt • A) y1 + dt • src (t + a * dt)) + a • ((dt • A) y2 + dt • src (t + c * dt)))
    (e : y = v 0 t + b • ((dt • A) y1 + dt • src (t + a * dt)) + (1 - a - b) • ((dt • A) y2 + dt • src (t + c * dt)) +
      a • ((dt • A) y + dt • src (t + dt))) : nrm B (y - v 0 (t + dt)) ≤ 2 * (dt ^ 4 * K) := by
  have hz := hd.smul hdt
  have l := hc.lo
  have u := hc.hi
  obtain ⟨l2, u2⟩ := hc.powers
  have cub := hc.cubic
  have eb := hc.eb
  have ec := hc.ec
  have a0 : 0 ≤ a := by linarith
  have ca : |a| ≤ 0.44 := abs_le.2 ⟨by linarith, by linarith⟩
  have cc : |c| ≤ 0.72 := abs_le.2 ⟨by linarith, by linarith⟩
  have cb : |b| ≤ 1.21 := abs_le.2 ⟨by linarith, by linarith⟩
  have cb2 : |1 - a - b| ≤ 0.65 := abs_le.2 ⟨by linarith, by linarith⟩
  have cca : |c - a| ≤ 0.29 := abs_le.2 ⟨by linarith, by linarith⟩
  have ck : |(1 - a - b) * (c - a)| ≤ 0.19 := by
    rw [abs_mul]
    exact (mul_le_mul cb2 cca (abs_nonneg _) (by norm_num)).trans (by norm_num)
  have cq : |b * a + (1 - a - b) * (c - a)| ≤ 0.73 := by
    refine (abs_add_le _ _).trans ?_
    rw [abs_mul b a]
    have := mul_le_mul cb ca (abs_nonneg _) (by norm_num)
    linarith
  have cr : |(1 - a - b) * a| ≤ 0.29 := by
    rw [abs_mul]
    exact (mul_le_mul cb2 ca (abs_nonneg _) (by norm_num)).trans (by norm_num)
  have r1 := zquad_le hd h.smooth hK hdt 2 1 rfl le_rfl [(0, 1, 0), (a, -1, a)]
    (by intro x hx; simp only [List.mem_cons, List.not_mem_nil, or_false] at hx
        rcases hx with rfl | rfl
        · norm_num
        · exact ca.trans (by norm_num))
    (by intro i hi; interval_cases i <;> simp [moment]) 0.3 (by
      simp only [gross, List.map_cons, List.map_nil, List.sum_cons, List.sum_nil]
      calc _ ≤ |1| * |0| ^ 2 + |0| * ((2 : Nat) * |0| ^ 1) + (|-1| * (0.44 : ℝ) ^ 2 + 0.44 * ((2 : Nat) * (0.44 : ℝ) ^ 1) + 0) := by gcongr
        _ ≤ _ := by norm_num [Nat.factorial])
  have r2 := zquad_le hd h.smooth hK hdt 1 2 rfl (by norm_num)
    [(0, b + (1 - a - b), 0), (a, -b, b * a + (1 - a - b) * (c - a)), (c, -(1 - a - b), (1 - a - b) * a)]
    (by intro x hx; simp only [List.mem_cons, List.not_mem_nil, or_false] at hx
        rcases hx with rfl | rfl | rfl
        · norm_num
        · exact ca.trans (by norm_num)
        · exact cc.trans (by norm_num))
    (by intro i hi
        interval_cases i <;> simp only [moment, List.map_cons, List.map_nil, List.sum_cons, List.sum_nil] <;> norm_num
        · ring
        · ring
        · rw [eb, ec]
          linear_combination (15 / 8 - 15 / 8 * a) * cub) 0.5 (by
      simp only [gross, List.map_cons, List.map_nil, List.sum_cons, List.sum_nil, abs_neg]
      calc _ ≤ |b + (1 - a - b)| * |0| ^ 3 + |0| * ((3 : Nat) * |0| ^ 2) + (1.21 * (0.44 : ℝ) ^ 3 + 0.73 * ((3 : Nat) * (0.44 : ℝ) ^ 2) +
            (0.65 * (0.72 : ℝ) ^ 3 + 0.29 * ((3 : Nat) * (0.72 : ℝ) ^ 2) + 0)) := by gcongr
        _ ≤ _ := by norm_num [Nat.factorial])
  have r := zquad_le hd h.smooth hK hdt 0 3 rfl (by norm_num) [(0, 1, 0), (a, 0, b), (c, 0, 1 - a - b), (1, -1, a)]
    (by intro x hx; simp only [List.mem_cons, List.not_mem_nil, or_false] at hx
        rcases hx with rfl | rfl | rfl | rfl
        · norm_num
        · exact ca.trans (by norm_num)
        · exact cc.trans (by norm_num)
        · norm_num)
    (by intro i hi
        interval_cases i <;> simp only [moment, List.map_cons, List.map_nil, List.sum_cons, List.sum_nil] <;> norm_num
        · ring
        · rw [eb, ec]
          linear_combination (-3 / 2) * cub
        · rw [eb, ec]
          linear_combination (3 / 8 - 27 / 8 * a) * cub) 0.3 (by
      simp only [gross, List.map_cons, List.map_nil, List.sum_cons, List.sum_nil]
      calc _ ≤ |1| * |0| ^ 4 + |0| * ((4 : Nat) * |0| ^ 3) + (|0| * (0.44 : ℝ) ^ 4 + 1.21 * ((4 : Nat) * (0.44 : ℝ) ^ 3) +
            (|0| * (0.72 : ℝ) ^ 4 + 0.65 * ((4 : Nat) * (0.72 : ℝ) ^ 3) + (|-1| * |1| ^ 4 + 0.44 * ((4 : Nat) * |1| ^ 3) + 0))) := by gcongr
        _ ≤ _ := by norm_num [Nat.factorial])
  rw [pow_one] at r2
  rw [pow_succ, pow_one, Module.End.mul_apply] at r1
  rw [pow_zero, Module.End.one_apply] at r
  obtain ⟨E1, hE1⟩ : ∃ E1, E1 = y1 - v 0 (t + a * dt) := ⟨_, rfl⟩
  obtain ⟨E2, hE2⟩ : ∃ E2, E2 = y2 - v 0 (t + c * dt) := ⟨_, rfl⟩
  obtain ⟨w, hw⟩ : ∃ w, w = b • E1 + (1 - a - b) • E2 := ⟨_, rfl⟩
  have f1 := h.eq (t + a * dt)
  have f2 := h.eq (t + c * dt)
  have f3 := h.eq (t + dt)
  have q1 : E1 = quad v t dt [(0, 1, 0), (a, -1, a)] + a • (dt • A) E1 := by
    rw [hE1]
    simp only [quad, List.map_cons, List.map_nil, List.sum_cons, List.sum_nil, zero_mul, one_mul, add_zero, map_sub,
      LinearMap.smul_apply] at e1 ⊢
    linear_combination (norm := module) e1 - (a * dt) • f1
  have q2 : w = quad v t dt [(0, b + (1 - a - b), 0), (a, -b, b * a + (1 - a - b) * (c - a)),
      (c, -(1 - a - b), (1 - a - b) * a)] + ((1 - a - b) * (c - a)) • (dt • A) E1 + a • (dt • A) w := by
    rw [hw, hE1, hE2]
    simp only [quad, List.map_cons, List.map_nil, List.sum_cons, List.sum_nil, zero_mul, one_mul, add_zero, map_sub, map_add,
      map_smul, LinearMap.smul_apply] at e1 e2 ⊢
    linear_combination (norm := module) b • e1 + (1 - a - b) • e2 - ((b * a + (1 - a - b) * (c - a)) * dt) • f1 -
      ((1 - a - b) * a * dt) • f2
  have q : y - v 0 (t + dt) = quad v t dt [(0, 1, 0), (a, 0, b), (c, 0, 1 - a - b), (1, -1, a)] +
      (dt • A) w + a • (dt • A) (y - v 0 (t + dt)) := by
    rw [hw, hE1, hE2]
    simp only [quad, List.map_cons, List.map_nil, List.sum_cons, List.sum_nil, zero_mul, one_mul, add_zero, map_sub, map_add,
      map_smul, LinearMap.smul_apply] at e ⊢
    linear_combination (norm := module) e - (b * dt) • f1 - ((1 - a - b) * dt) • f2 - (a * dt) • f3
  obtain ⟨Z, hZ⟩ : ∃ Z, Z = dt • A := ⟨_, rfl⟩
  rw [← hZ] at hz q1 q2 q r1 r2
  generalize quad v t dt [(0, 1, 0), (a, -1, a)] = d1 at *
  generalize quad v t dt [(0, b + (1 - a - b), 0), (a, -b, b * a + (1 - a - b) * (c - a)),
      (c, -(1 - a - b), (1 - a - b) * a)] = d2 at *
  generalize quad v t dt [(0, 1, 0), (a, 0, b), (c, 0, 1 - a - b), (1, -1, a)] = d at *
  have z1 : Z (Z E1) = Z (Z d1) + a • Z (Z (Z E1)) := by
    have := congrArg (fun x => Z (Z x)) q1
    simp only [map_add, map_smul] at this
    exact this
  have b1 := (stage_le hz a0 z1).trans r1
  have z2 : Z w = (Z d2 + ((1 - a - b) * (c - a)) • Z (Z E1)) + a • Z (Z w) := by
    have := congrArg Z q2
    simp only [map_add, map_smul] at this
    exact this
  have b2 := (stage_le hz a0 z2).trans (tri hd r2 (scale b1 ck))
  refine (stage_le hz a0 q).trans ((tri hd r b2).trans ?_)
  have : 0 ≤ dt ^ (3 + 1) * K := mul_nonneg (pow_nonneg hdt _) (hK.nonneg (by norm_num) (by positivity))
  show _ ≤ 2 * (dt ^ (3 + 1) * K)
  generalize dt ^ (3 + 1) * K = X at this ⊢
  linarith

theorem sdirk34_driven (hd : Diss B A) (h : Driven 4 A src v) (hdt : 0 ≤ dt) (hK : Near 4 B A v t (11 / 10 * dt) K) {a b : ℝ}
    (hc : Is34 a b) {y y1 y2 y3 : V}
    (e1 : y1 = v 0 t + a • ((dt • A) y1 + dt • src (t + a * dt)))
    (e2 : y2 = v 0 t + (1 / 2 - a) • ((dt • A) y1 + dt • src (t + a * dt)) + a • ((dt • A) y2 + dt • src (t + 1 / 2 * dt)))
    (e3 : y3 = v 0 t + (2 * a) • ((dt • A) y1 + dt • src (t + a * dt)) + (1 - 4 * a) • ((dt • A) y2 + dt • src (t + 1 / 2 * dt)) +
      a • ((dt • A) y3 + dt • src (t + (1 - a) * dt)))
    (e : y = v 0 t + b • ((dt • A) y1 + dt • src (t + a * dt)) + (1 - 2 * b) • ((dt • A) y2 + dt • src (t + 1 / 2 * dt)) +
      b • ((dt • A) y3 + dt • src (t + (1 - a) * dt))) : nrm B (y - v 0 (t + dt)) ≤ 2 * (dt ^ 5 * K) := by
  have hz := hd.smul hdt
  have l := hc.lo
  have u := hc.hi
  have cub := hc.cubic
  have wt := hc.weight
  have wt' := hc.weight'
  have b0 := hc.b_pos
  have b1' : b ≤ 0.14 := by nlinarith
  have b2' : 0.12 ≤ b := by nlinarith
  have a0 : 0 ≤ a := by linarith
  have ca : |a| ≤ 1.07 := abs_le.2 ⟨by linarith, by linarith⟩
  have ca1 : |1 - a| ≤ 0.07 := abs_le.2 ⟨by linarith, by linarith⟩
  have cb : |b| ≤ 0.14 := abs_le.2 ⟨by linarith, by linarith⟩
  have cb2 : |1 - 2 * b| ≤ 0.76 := abs_le.2 ⟨by linarith, by linarith⟩
  have cba : |b * a| ≤ 0.15 := by
    rw [abs_mul]
    exact (mul_le_mul cb ca (abs_nonneg _) (by norm_num)).trans (by norm_num)
  obtain ⟨al, hal⟩ : ∃ al, al = (1 - 2 * b) * (1 / 2 - a) + 2 * a * b := ⟨_, rfl⟩
  obtain ⟨be, hbe⟩ : ∃ be, be = b * (1 - 4 * a) := ⟨_, rfl⟩
  have cal : |al| ≤ 0.2 := by
    rw [hal]
    apply abs_le.2
    constructor <;> nlinarith
  have cbe : |be| ≤ 0.5 := by
    rw [hbe]
    apply abs_le.2
    constructor <;> nlinarith
  have cbk : |be * (1 / 2 - a)| ≤ 0.3 := by
    rw [abs_mul]
    have : |1 / 2 - a| ≤ 0.57 := abs_le.2 ⟨by linarith, by linarith⟩
    exact (mul_le_mul cbe this (abs_nonneg _) (by norm_num)).trans (by norm_num)
  have cbea : |be * a| ≤ 0.54 := by
    rw [abs_mul]
    exact (mul_le_mul cbe ca (abs_nonneg _) (by norm_num)).trans (by norm_num)
  have cala : |al * a + be * (1 / 2 - a)| ≤ 0.52 := by
    refine (abs_add_le _ _).trans ?_
    rw [abs_mul al a]
    have := mul_le_mul cal ca (abs_nonneg _) (by norm_num)
    linarith
  have cqa : |b * a + al| ≤ 0.35 := by
    refine (abs_add_le _ _).trans ?_
    linarith
  have cqh : |(1 - 2 * b) * a + be| ≤ 1.33 := by
    refine (abs_add_le _ _).trans ?_
    rw [abs_mul (1 - 2 * b) a]
    have := mul_le_mul cb2 ca (abs_nonneg _) (by norm_num)
    linarith
  have ch : |(1 / 2 : ℝ)| ≤ 0.5 := by norm_num [abs_of_pos]
  have r1 := zquad_le hd h.smooth hK hdt 3 1 rfl le_rfl [(0, 1, 0), (a, -1, a)]
    (by intro x hx; simp only [List.mem_cons, List.not_mem_nil, or_false] at hx
        rcases hx with rfl | rfl
        · norm_num
        · exact ca.trans (by norm_num))
    (by intro i hi; interval_cases i <;> simp [moment]) 1.8 (by
      simp only [gross, List.map_cons, List.map_nil, List.sum_cons, List.sum_nil]
      calc _ ≤ |1| * |0| ^ 2 + |0| * ((2 : Nat) * |0| ^ 1) + (|-1| * (1.07 : ℝ) ^ 2 + 1.07 * ((2 : Nat) * (1.07 : ℝ) ^ 1) + 0) := by gcongr
        _ ≤ _ := by norm_num [Nat.factorial])
  have r2 := zquad_le hd h.smooth hK hdt 2 2 rfl (by norm_num)
    [(0, al + be, 0), (a, -al, al * a + be * (1 / 2 - a)), (1 / 2, -be, be * a)]
    (by intro x hx; simp only [List.mem_cons, List.not_mem_nil, or_false] at hx
        rcases hx with rfl | rfl | rfl
        · norm_num
        · exact ca.trans (by norm_num)
        · exact ch.trans (by norm_num))
    (by intro i hi
        rw [hal, hbe]
        interval_cases i <;> simp only [moment, List.map_cons, List.map_nil, List.sum_cons, List.sum_nil] <;> norm_num
        · ring
        · ring
        · linear_combination (-1 / 24 + b / 2) * cub + 1 / 24 * wt - a / 2 * wt') 0.5 (by
      simp only [gross, List.map_cons, List.map_nil, List.sum_cons, List.sum_nil, abs_neg]
      calc _ ≤ |al + be| * |0| ^ 3 + |0| * ((3 : Nat) * |0| ^ 2) + (0.2 * (1.07 : ℝ) ^ 3 + 0.52 * ((3 : Nat) * (1.07 : ℝ) ^ 2) +
            (0.5 * (0.5 : ℝ) ^ 3 + 0.54 * ((3 : Nat) * (0.5 : ℝ) ^ 2) + 0)) := by gcongr
        _ ≤ _ := by norm_num [Nat.factorial])
  have r3 := zquad_le hd h.smooth hK hdt 1 3 rfl (by norm_num)
    [(0, 1, 0), (a, -b, b * a + al), (1 / 2, -(1 - 2 * b), (1 - 2 * b) * a + be), (1 - a, -b, b * a)]
    (by intro x hx; simp only [List.mem_cons, List.not_mem_nil, or_false] at hx
        rcases hx with rfl | rfl | rfl | rfl
        · norm_num
        · exact ca.trans (by norm_num)
        · exact ch.trans (by norm_num)
        · exact ca1.trans (by norm_num))
    (by intro i hi
        rw [hal, hbe]
        interval_cases i <;> simp only [moment, List.map_cons, List.map_nil, List.sum_cons, List.sum_nil] <;> norm_num
        · ring
        · ring
        · linear_combination b * cub + (1 / 4 - a) * wt - a * wt'
        · linear_combination (-1 / 8 + 3 / 2 * b) * cub + (1 / 4 - 3 / 4 * a) * wt - 3 / 2 * a * wt') 0.2 (by
      simp only [gross, List.map_cons, List.map_nil, List.sum_cons, List.sum_nil, abs_neg]
      calc _ ≤ |1| * |0| ^ 4 + |0| * ((4 : Nat) * |0| ^ 3) + (0.14 * (1.07 : ℝ) ^ 4 + 0.35 * ((4 : Nat) * (1.07 : ℝ) ^ 3) +
            (0.76 * (0.5 : ℝ) ^ 4 + 1.33 * ((4 : Nat) * (0.5 : ℝ) ^ 3) + (0.14 * (0.07 : ℝ) ^ 4 + 0.15 * ((4 : Nat) * (0.07 : ℝ) ^ 3) + 0))) := by gcongr
        _ ≤ _ := by norm_num [Nat.factorial])
  have r := zquad_le hd h.smooth hK hdt 0 4 rfl (by norm_num) [(0, 1, 0), (a, 0, b), (1 / 2, 0, 1 - 2 * b), (1 - a, 0, b), (1, -1, 0)]
    (by intro x hx; simp only [List.mem_cons, List.not_mem_nil, or_false] at hx
        rcases hx with rfl | rfl | rfl | rfl | rfl
        · norm_num
        · exact ca.trans (by norm_num)
        · exact ch.trans (by norm_num)
        · exact ca1.trans (by norm_num)
        · norm_num)
    (by intro i hi
        interval_cases i <;> simp only [moment, List.map_cons, List.map_nil, List.sum_cons, List.sum_nil] <;> norm_num
        · ring
        · ring
        · linear_combination 1 / 4 * wt
        · linear_combination 1 / 2 * wt) 0.1 (by
      simp only [gross, List.map_cons, List.map_nil, List.sum_cons, List.sum_nil]
      calc _ ≤ |1| * |0| ^ 5 + |0| * ((5 : Nat) * |0| ^ 4) + (|0| * (1.07 : ℝ) ^ 5 + 0.14 * ((5 : Nat) * (1.07 : ℝ) ^ 4) +
            (|0| * (0.5 : ℝ) ^ 5 + 0.76 * ((5 : Nat) * (0.5 : ℝ) ^ 4) + (|0| * (0.07 : ℝ) ^ 5 + 0.14 * ((5 : Nat) * (0.07 : ℝ) ^ 4) +
              (|-1| * |1| ^ 5 + |0| * ((5 : Nat) * |1| ^ 4) + 0)))) := by gcongr
        _ ≤ _ := by norm_num [Nat.factorial])
  rw [pow_one] at r3
  rw [pow_succ, pow_one, Module.End.mul_apply] at r2
  rw [pow_succ, pow_succ, pow_one, Module.End.mul_apply, Module.End.mul_apply] at r1
  rw [pow_zero, Module.End.one_apply] at r
  obtain ⟨E1, hE1⟩ : ∃ E1, E1 = y1 - v 0 (t + a * dt) := ⟨_, rfl⟩
  obtain ⟨E2, hE2⟩ : ∃ E2, E2 = y2 - v 0 (t + 1 / 2 * dt) := ⟨_, rfl⟩
  obtain ⟨E3, hE3⟩ : ∃ E3, E3 = y3 - v 0 (t + (1 - a) * dt) := ⟨_, rfl⟩
  obtain ⟨w2, hw2⟩ : ∃ w2, w2 = al • E1 + be • E2 := ⟨_, rfl⟩
  obtain ⟨w, hw⟩ : ∃ w, w = b • E1 + (1 - 2 * b) • E2 + b • E3 := ⟨_, rfl⟩
  have f1 := h.eq (t + a * dt)
  have f2 := h.eq (t + 1 / 2 * dt)
  have f3 := h.eq (t + (1 - a) * dt)
  have q1 : E1 = quad v t dt [(0, 1, 0), (a, -1, a)] + a • (dt • A) E1 := by
    rw [hE1]
    simp only [quad, List.map_cons, List.map_nil, List.sum_cons, List.sum_nil, zero_mul, one_mul, add_zero, map_sub,
      LinearMap.smul_apply] at e1 ⊢
    linear_combination (norm := module) e1 - (a * dt) • f1
  have q2 : w2 = quad v t dt [(0, al + be, 0), (a, -al, al * a + be * (1 / 2 - a)), (1 / 2, -be, be * a)] +
      (be * (1 / 2 - a)) • (dt • A) E1 + a • (dt • A) w2 := by
    rw [hw2, hE1, hE2]
    simp only [quad, List.map_cons, List.map_nil, List.sum_cons, List.sum_nil, zero_mul, one_mul, add_zero, map_sub, map_add,
      map_smul, LinearMap.smul_apply] at e1 e2 ⊢
    linear_combination (norm := module) al • e1 + be • e2 - ((al * a + be * (1 / 2 - a)) * dt) • f1 - (be * a * dt) • f2
  have q3 : w = quad v t dt [(0, 1, 0), (a, -b, b * a + al), (1 / 2, -(1 - 2 * b), (1 - 2 * b) * a + be), (1 - a, -b, b * a)] +
      (dt • A) w2 + a • (dt • A) w := by
    rw [hw, hw2, hE1, hE2, hE3]
    simp only [quad, List.map_cons, List.map_nil, List.sum_cons, List.sum_nil, zero_mul, one_mul, add_zero, map_sub, map_add,
      map_smul, LinearMap.smul_apply] at e1 e2 e3 ⊢
    rw [hal, hbe]
    linear_combination (norm := module) b • e1 + (1 - 2 * b) • e2 + b • e3 -
      ((b * a + ((1 - 2 * b) * (1 / 2 - a) + 2 * a * b)) * dt) • f1 - (((1 - 2 * b) * a + b * (1 - 4 * a)) * dt) • f2 -
      (b * a * dt) • f3
  have q : y - v 0 (t + dt) = quad v t dt [(0, 1, 0), (a, 0, b), (1 / 2, 0, 1 - 2 * b), (1 - a, 0, b), (1, -1, 0)] +
      (dt • A) w := by
    rw [hw, hE1, hE2, hE3]
    simp only [quad, List.map_cons, List.map_nil, List.sum_cons, List.sum_nil, zero_mul, one_mul, add_zero, map_sub, map_add,
      map_smul, LinearMap.smul_apply] at e ⊢
    linear_combination (norm := module) e - (b * dt) • f1 - ((1 - 2 * b) * dt) • f2 - (b * dt) • f3
  obtain ⟨Z, hZ⟩ : ∃ Z, Z = dt • A := ⟨_, rfl⟩
  rw [← hZ] at hz q1 q2 q3 q r1 r2 r3
  generalize quad v t dt [(0, 1, 0), (a, -1, a)] = d1 at *
  generalize quad v t dt [(0, al + be, 0), (a, -al, al * a + be * (1 / 2 - a)), (1 / 2, -be, be * a)] = d2 at *
  generalize quad v t dt [(0, 1, 0), (a, -b, b * a + al), (1 / 2, -(1 - 2 * b), (1 - 2 * b) * a + be), (1 - a, -b, b * a)] =
    d3 at *
  generalize quad v t dt [(0, 1, 0), (a, 0, b), (1 / 2, 0, 1 - 2 * b), (1 - a, 0, b), (1, -1, 0)] = d at *
  have z1 : Z (Z (Z E1)) = Z (Z (Z d1)) + a • Z (Z (Z (Z E1))) := by
    have := congrArg (fun x => Z (Z (Z x))) q1
    simp only [map_add, map_smul] at this
    exact this
  have b1 := (stage_le hz a0 z1).trans r1
  have z2 : Z (Z w2) = (Z (Z d2) + (be * (1 / 2 - a)) • Z (Z (Z E1))) + a • Z (Z (Z w2)) := by
    have := congrArg (fun x => Z (Z x)) q2
    simp only [map_add, map_smul] at this
    exact this
  have b2 := (stage_le hz a0 z2).trans (tri hd r2 (scale b1 cbk))
  have z3 : Z w = (Z d3 + Z (Z w2)) + a • Z (Z w) := by
    have := congrArg Z q3
    simp only [map_add, map_smul] at this
    exact this
  have b3 := (stage_le hz a0 z3).trans (tri hd r3 b2)
  rw [q]
  refine (tri hd r b3).trans ?_
  have : 0 ≤ dt ^ (4 + 1) * K := mul_nonneg (pow_nonneg hdt _) (hK.nonneg (by norm_num) (by positivity))
  show _ ≤ 2 * (dt ^ (4 + 1) * K)
  generalize dt ^ (4 + 1) * K = X at this ⊢
  linarith

theorem rk4_driven (hd : Diss B A) (h : Driven 4 A src v) (hdt : 0 ≤ dt) (hK : Near 4 B A v t (11 / 10 * dt) K) {F : Tdo V S}
    (hF : ∀ t x, F.mult t x = A x + src t) : nrm B ((rk4 F (v 0 t) t dt).1 - v 0 (t + dt)) ≤ 1 / 10 * (dt ^ 5 * K) := by
  have r0 := zquad_le hd h.smooth hK hdt 0 4 rfl (by norm_num) [(0, 1, 1 / 6), (1 / 2, 0, 4 / 6), (1, -1, 1 / 6)]
    (by intro x hx; simp only [List.mem_cons, List.not_mem_nil, or_false] at hx; rcases hx with rfl | rfl | rfl <;> norm_num)
    (by intro i hi; interval_cases i <;> norm_num [moment]) 0.02 (by norm_num [gross, Nat.factorial, abs_of_pos])
  have r1 := zquad_le hd h.smooth hK hdt 1 3 rfl (by norm_num) [(0, 5, 1), (1 / 2, -4, 2), (1, -1, 0)]
    (by intro x hx; simp only [List.mem_cons, List.not_mem_nil, or_false] at hx; rcases hx with rfl | rfl | rfl <;> norm_num)
    (by intro i hi; interval_cases i <;> norm_num [moment]) 0.1 (by norm_num [gross, Nat.factorial, abs_of_pos])
  have r2 := zquad_le hd h.smooth hK hdt 2 2 rfl (by norm_num) [(0, 2, 1 / 2), (1 / 2, -2, 1 / 2)]
    (by intro x hx; simp only [List.mem_cons, List.not_mem_nil, or_false] at hx; rcases hx with rfl | rfl <;> norm_num)
    (by intro i hi; interval_cases i <;> norm_num [moment]) 0.11 (by norm_num [gross, Nat.factorial, abs_of_pos])
  have r3 := zquad_le hd h.smooth hK hdt 3 1 rfl (by norm_num) [(0, 1, 1 / 2), (1 / 2, -1, 0)]
    (by intro x hx; simp only [List.mem_cons, List.not_mem_nil, or_false] at hx; rcases hx with rfl | rfl <;> norm_num)
    (by intro i hi; interval_cases i <;> norm_num [moment]) 0.125 (by norm_num [gross, Nat.factorial, abs_of_pos])
  rw [pow_zero, Module.End.one_apply] at r0
  rw [pow_one] at r1
  rw [pow_succ, pow_one, Module.End.mul_apply] at r2
  rw [pow_succ, pow_succ, pow_one, Module.End.mul_apply, Module.End.mul_apply] at r3
  have f : ∀ s, src s = v 1 s - A (v 0 s) := fun s => eq_sub_of_add_eq' (h.eq s).symm
  have e : (rk4 F (v 0 t) t dt).1 - v 0 (t + dt) = quad v t dt [(0, 1, 1 / 6), (1 / 2, 0, 4 / 6), (1, -1, 1 / 6)] +
      (1 / 6 : ℝ) • (dt • A) (quad v t dt [(0, 5, 1), (1 / 2, -4, 2), (1, -1, 0)]) +
      (1 / 6 : ℝ) • (dt • A) ((dt • A) (quad v t dt [(0, 2, 1 / 2), (1 / 2, -2, 1 / 2)])) +
      (1 / 12 : ℝ) • (dt • A) ((dt • A) ((dt • A) (quad v t dt [(0, 1, 1 / 2), (1 / 2, -1, 0)]))) := by
    simp only [rk4, hF, f, quad, List.map_cons, List.map_nil, List.sum_cons, List.sum_nil, zero_mul, one_mul, add_zero, map_sub,
      map_add, map_smul, LinearMap.smul_apply, one_div_mul_eq_div]
    module
  rw [e]
  refine (tri hd (tri hd (tri hd r0 (scale r1 (by norm_num [abs_of_pos] : |(1 / 6 : ℝ)| ≤ 1 / 6)))
    (scale r2 (by norm_num [abs_of_pos] : |(1 / 6 : ℝ)| ≤ 1 / 6)))
    (scale r3 (by norm_num [abs_of_pos] : |(1 / 12 : ℝ)| ≤ 1 / 12))).trans ?_
  have : 0 ≤ dt ^ (4 + 1) * K := mul_nonneg (pow_nonneg hdt _) (hK.nonneg (by norm_num) (by positivity))
  show _ ≤ 1 / 10 * (dt ^ (4 + 1) * K)
  generalize dt ^ (4 + 1) * K = X at this ⊢
  linarith

/-- One implicit step with sources, from the exact solution. -/
theorem Rel.driven {q : Sdirk ℝ} (hq : Ideal33 q) {o : Ode} (hd : Diss B A) (hdt : 0 ≤ dt) (h : Driven (order o) A src v)
    (hK : Near (order o) B A v t (11 / 10 * dt) K) {y : V}
    (r : Rel q o (dt • A) (dt • src (stageTimes q o t dt).1) (dt • src (stageTimes q o t dt).2.1)
      (dt • src (stageTimes q o t dt).2.2) (v 0 t) y) : nrm B (y - v 0 (t + dt)) ≤ 2 * (dt ^ (order o + 1) * K) := by
  cases o with
  | rk4 => exact r.elim
  | backwardEuler => exact backward_driven hd h hdt hK r
  | trapezoidal => exact trapezoidal_driven hd h hdt hK r
  | implicitMidpoint =>
    obtain ⟨m, e1, e⟩ := r
    exact midpoint_driven hd h hdt hK e1 e
  | sdirk33 =>
    obtain ⟨y1, y2, e1, e2, e⟩ := r
    exact sdirk33_driven hd h hdt hK (is33 hq) e1 e2 e
  | sdirk23 =>
    obtain ⟨y1, y2, e1, e2, e⟩ := r
    exact sdirk23_driven hd h hdt hK gamma23_bounds.1 gamma23_bounds.2 e1 e2 e
  | sdirk34 =>
    obtain ⟨y1, y2, y3, e1, e2, e3, e⟩ := r
    exact sdirk34_driven hd h hdt hK is34 e1 e2 e3 e

/-- A run of an implicit integrator with sources. -/
theorem run_driven {q : Sdirk ℝ} (hq : Ideal33 q) {F : Tdo V S} {I : S → Prop} (h : Solves F A src I) (hd : Diss B A) {o : Ode}
    (ho : o ≠ .rk4) (hv : Driven (order o) A src v) (H : ℝ) (dts : List ℝ) :
    ∀ (x : V) (t : ℝ) (s : S), (∀ dt ∈ dts, 0 ≤ dt ∧ dt ≤ H) →
      (∀ j n, j + n = order o + 1 → 2 ≤ n → ∀ r, t - 11 / 10 * H ≤ r → r ≤ t + dts.sum + 11 / 10 * H →
        nrm B ((A ^ j) (v n r)) ≤ K) → I s →
      ∃ y r, run q o F dts x t s = some (y, t + dts.sum, r) ∧ I r ∧
        nrm B (y - v 0 (t + dts.sum)) ≤ nrm B (x - v 0 t) + 2 * dts.sum * H ^ order o * K := by
  induction dts with
  | nil =>
    intro x t s _ _ hs
    exact ⟨x, s, by simp [run], hs, by simp⟩
  | cons dt rest ih =>
    intro x t s hp hK hs
    obtain ⟨hdt, hdH⟩ := hp dt List.mem_cons_self
    have hrest : 0 ≤ rest.sum := List.sum_nonneg fun d hd => (hp d (List.mem_cons_of_mem _ hd)).1
    obtain ⟨y, s1, e, i, r⟩ := step_rel hq h ho x t dt hdt s hs
    obtain ⟨y', s1', -, -, r'⟩ := step_rel hq h ho (v 0 t) t dt hdt s hs
    rw [List.sum_cons] at hK
    obtain ⟨z, r1, f, j, le⟩ := ih y (t + dt) s1 (fun d hd => hp d (List.mem_cons_of_mem _ hd))
      (fun j n hj hn r hr hr' => hK j n hj hn r (by linarith) (by linarith)) i
    refine ⟨z, r1, ?_, j, ?_⟩
    · simp only [run, e, Option.bind_eq_bind, Option.bind_some, f, List.sum_cons, add_assoc]
    · have near : Near (order o) B A v t (11 / 10 * dt) K := by
        intro j n hj hn r hr
        rw [abs_le] at hr
        exact hK j n hj hn r (by linarith) (by linarith)
      have K0 : 0 ≤ K := near.nonneg (by cases o <;> simp [order]) (by positivity)
      have d1 := r'.driven hq hd hdt hv near
      have d2 := (nrm_le_iff hd.nonneg).2 ((r.sub r').energy hq (hd.smul hdt))
      have d3 := nrm_add_le hd.symm hd.nonneg (y - y') (y' - v 0 (t + dt))
      rw [sub_add_sub_cancel] at d3
      have d4 : dt ^ (order o + 1) * K ≤ dt * H ^ order o * K := by
        rw [pow_succ, mul_comm (dt ^ order o)]
        exact mul_le_mul_of_nonneg_right (mul_le_mul_of_nonneg_left (pow_le_pow_left₀ hdt hdH (order o)) hdt) K0
      rw [List.sum_cons, ← add_assoc]
      nlinarith

/-- Equal explicit steps with sources. -/
theorem run_rk4_driven (q : Sdirk ℝ) {F : Tdo V S} (hF : ∀ t x, F.mult t x = A x + src t) (hd : Diss B A) (hdt : 0 ≤ dt)
    (hb : ∀ u, B ((dt • A) u) ((dt • A) u) ≤ 1 / 16 * B u u) (hv : Driven 4 A src v) (n : Nat) :
    ∀ (x : V) (t : ℝ) (s : S), (∀ j m, j + m = 5 → 2 ≤ m → ∀ r, t - 11 / 10 * dt ≤ r → r ≤ t + n * dt + 11 / 10 * dt →
        nrm B ((A ^ j) (v m r)) ≤ K) →
      ∃ y w, run q .rk4 F (List.replicate n dt) x t s = some (y, t + n * dt, s) ∧
        y - v 0 (t + n * dt) = (rkPoly (dt • A))^[n] (x - v 0 t) + w ∧
        nrm B w ≤ Real.sqrt 2 * (n * (1 / 10 * (dt ^ 5 * K))) := by
  induction n with
  | zero => intro x t s _; exact ⟨x, 0, by simp [run], by simp, by simp [nrm]⟩
  | succ n ih =>
    intro x t s hK
    have hn : 0 ≤ (n : ℝ) * dt := mul_nonneg (Nat.cast_nonneg n) hdt
    have ht : t + ((n + 1 : Nat) : ℝ) * dt = t + dt + n * dt := by push_cast; ring
    rw [ht] at hK
    obtain ⟨y, w, e, hy, hw⟩ := ih (rk4 F x t dt).1 (t + dt) s
      (fun j m hj hm r hr hr' => hK j m hj hm r (by linarith) hr')
    have near : Near 4 B A v t (11 / 10 * dt) K := by
      intro j m hj hm r hr
      rw [abs_le] at hr
      exact hK j m hj hm r (by linarith) (by linarith)
    obtain ⟨d, hdd⟩ : ∃ d, d = (rk4 F (v 0 t) t dt).1 - v 0 (t + dt) := ⟨_, rfl⟩
    have hl := rk4_driven hd hv hdt near hF
    rw [← hdd] at hl
    refine ⟨y, (rkPoly (dt • A))^[n] d + w, ?_, ?_, ?_⟩
    · simp only [List.replicate_succ, run, step, Option.bind_eq_bind, Option.bind_some]
      rw [show (rk4 F x t dt).2 = t + dt from rfl, e, ht]
    · rw [ht, hy, Function.iterate_succ, Function.comp_apply, ← add_assoc, ← rkPoly_iter_add]
      congr 2
      have := rk4_change hF hF x (v 0 t) t dt
      simp only [sub_self] at this
      have z : rkAdd (dt • A) dt (0 : V) 0 0 = 0 := by simp [rkAdd]
      rw [z, add_zero] at this
      rw [hdd, ← this]
      abel
    · have h1 := nrm_two (rkPoly_power (hd.smul hdt) hb n d)
      have h5 := nrm_add_le hd.symm hd.nonneg ((rkPoly (dt • A))^[n] d) w
      have h6 := mul_le_mul_of_nonneg_left hl (Real.sqrt_nonneg 2)
      push_cast
      nlinarith

/-- The same with a shorter last step. -/
theorem run_rk4_driven_last (q : Sdirk ℝ) {F : Tdo V S} (hF : ∀ t x, F.mult t x = A x + src t) (hd : Diss B A) {last : ℝ}
    (h0 : 0 ≤ last) (hl : last ≤ dt) (hb : ∀ u, B ((dt • A) u) ((dt • A) u) ≤ 1 / 16 * B u u)
    (hb' : ∀ u, B ((last • A) u) ((last • A) u) ≤ 1 / 16 * B u u) (hv : Driven 4 A src v) (n : Nat) (t : ℝ) (s : S)
    (hK : ∀ j m, j + m = 5 → 2 ≤ m → ∀ r, t - 11 / 10 * dt ≤ r → r ≤ t + n * dt + last + 11 / 10 * dt →
        nrm B ((A ^ j) (v m r)) ≤ K) :
    ∃ y, run q .rk4 F (List.replicate n dt ++ [last]) (v 0 t) t s = some (y, t + n * dt + last, s) ∧
      nrm B (y - v 0 (t + n * dt + last)) ≤ (n * dt + last) * dt ^ 4 * K := by
  have hdt : 0 ≤ dt := h0.trans hl
  have hn : 0 ≤ (n : ℝ) * dt := mul_nonneg (Nat.cast_nonneg n) hdt
  obtain ⟨y, w, e, hy, hw⟩ := run_rk4_driven q hF hd hdt hb hv n (v 0 t) t s
    (fun j m hj hm r hr hr' => hK j m hj hm r hr (by linarith))
  obtain ⟨z, w', e', hz, hw'⟩ := run_rk4_driven q hF hd h0 hb' hv 1 y (t + n * dt) s
    (fun j m hj hm r hr hr' => hK j m hj hm r (by linarith) (by push_cast at hr'; linarith))
  simp only [Nat.cast_one, one_mul, Function.iterate_one] at e' hz hw'
  have K0 : 0 ≤ K := (nrm_nonneg _ _).trans (hK 0 5 rfl (by norm_num) t (by linarith) (by linarith))
  refine ⟨z, ?_, ?_⟩
  · rw [run_append, e]
    exact e'
  · have zero : (rkPoly (dt • A))^[n] (v 0 t - v 0 t) = 0 := by
      rw [sub_self]
      have := rkPoly_iter_add (dt • A) n (0 : V) 0
      simpa using this
    simp only [zero, zero_add] at hy
    have g1 := nrm_two (rk4_once (hd.smul h0) hb' (rkPoly (last • A)) (fun _ => rfl) (y - v 0 (t + n * dt)))
    have g2 := nrm_add_le hd.symm hd.nonneg (rkPoly (last • A) (y - v 0 (t + n * dt))) w'
    rw [← hz] at g2
    rw [hy] at g1 g2
    have s2 : Real.sqrt 2 * Real.sqrt 2 = 2 := Real.mul_self_sqrt (by norm_num)
    have s1 : Real.sqrt 2 ≤ 2 := by rw [Real.sqrt_le_iff]; norm_num
    have s0 := Real.sqrt_nonneg 2
    have g3 := mul_le_mul_of_nonneg_left hw s0
    have d5 : last ^ 5 ≤ last * dt ^ 4 := by
      rw [pow_succ, mul_comm]
      exact mul_le_mul_of_nonneg_left (pow_le_pow_left₀ h0 hl 4) h0
    have g4 : Real.sqrt 2 * (Real.sqrt 2 * (n * (1 / 10 * (dt ^ 5 * K)))) = n * dt * dt ^ 4 * K / 5 := by
      rw [← mul_assoc, s2]; ring
    have g5 : Real.sqrt 2 * (1 / 10 * (last ^ 5 * K)) ≤ last * dt ^ 4 * K / 5 := by
      have : last ^ 5 * K ≤ last * dt ^ 4 * K := mul_le_mul_of_nonneg_right d5 K0
      have p : 0 ≤ last ^ 5 * K := by positivity
      nlinarith
    have p1 : 0 ≤ n * dt * dt ^ 4 * K := by positivity
    have p2 : 0 ≤ last * dt ^ 4 * K := by positivity
    nlinarith

end

end Dgtd.TimeInt
