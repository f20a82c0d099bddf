/-
Effect of a small change of the operator on explicit steps.
-/
import Verif.Lemmas.TimeIntPert
import Mathlib.Analysis.SpecialFunctions.Exp

set_option linter.unusedSectionVars false

namespace Dgtd.TimeInt

open Implicit

section
variable {V S : Type} [AddCommGroup V] [Module ℝ V]

/-- What changes `d1`, …, `d4` of the four rates add to a step. -/
noncomputable def rkDefect (Z : V →ₗ[ℝ] V) (dt : ℝ) (d1 d2 d3 d4 : V) : V :=
  (dt / 6) • (d1 + (2 : ℝ) • d2 + (2 : ℝ) • d3 + d4 + Z d1 + Z d2 + Z d3 + (1 / 2 : ℝ) • Z (Z d1) + (1 / 2 : ℝ) • Z (Z d2) +
    (1 / 4 : ℝ) • Z (Z (Z d1)))

theorem rk4_defect (A : V →ₗ[ℝ] V) (x k1 k2 k3 k4 d1 d2 d3 d4 : V) (dt : ℝ) (h1 : k1 = A x + d1)
    (h2 : k2 = A (x + (dt / 2) • k1) + d2) (h3 : k3 = A (x + (dt / 2) • k2) + d3) (h4 : k4 = A (x + dt • k3) + d4) :
    x + (dt / 6) • k1 + (dt / 3) • k2 + (dt / 3) • k3 + (dt / 6) • k4 =
      rkPoly (dt • A) x + rkDefect (dt • A) dt d1 d2 d3 d4 := by
  subst h4 h3 h2 h1
  simp only [rkPoly, rkDefect, map_add, map_smul, LinearMap.smul_apply]
  module

theorem rkDefect_le {B : V →ₗ[ℝ] V →ₗ[ℝ] ℝ} {Z : V →ₗ[ℝ] V} (h : Diss B Z) (hb : ∀ u, B (Z u) (Z u) ≤ 1 / 16 * B u u)
    {dt e : ℝ} (hdt : 0 ≤ dt) {d1 d2 d3 d4 : V} (h1 : nrm B d1 ≤ 2 * e) (h2 : nrm B d2 ≤ 2 * e) (h3 : nrm B d3 ≤ 2 * e)
    (h4 : nrm B d4 ≤ 2 * e) : nrm B (rkDefect Z dt d1 d2 d3 d4) ≤ 4 * (dt * e) := by
  have tri := nrm_add_le h.symm h.nonneg
  have q := nrm_quarter hb
  have n0 := nrm_nonneg B
  unfold rkDefect
  rw [nrm_scale _ (by positivity)]
  have k1 := tri (d1 + (2 : ℝ) • d2 + (2 : ℝ) • d3 + d4 + Z d1 + Z d2 + Z d3 + (1 / 2 : ℝ) • Z (Z d1) + (1 / 2 : ℝ) • Z (Z d2))
    ((1 / 4 : ℝ) • Z (Z (Z d1)))
  have k2 := tri (d1 + (2 : ℝ) • d2 + (2 : ℝ) • d3 + d4 + Z d1 + Z d2 + Z d3 + (1 / 2 : ℝ) • Z (Z d1)) ((1 / 2 : ℝ) • Z (Z d2))
  have k3 := tri (d1 + (2 : ℝ) • d2 + (2 : ℝ) • d3 + d4 + Z d1 + Z d2 + Z d3) ((1 / 2 : ℝ) • Z (Z d1))
  have k4 := tri (d1 + (2 : ℝ) • d2 + (2 : ℝ) • d3 + d4 + Z d1 + Z d2) (Z d3)
  have k5 := tri (d1 + (2 : ℝ) • d2 + (2 : ℝ) • d3 + d4 + Z d1) (Z d2)
  have k6 := tri (d1 + (2 : ℝ) • d2 + (2 : ℝ) • d3 + d4) (Z d1)
  have k7 := tri (d1 + (2 : ℝ) • d2 + (2 : ℝ) • d3) d4
  have k8 := tri (d1 + (2 : ℝ) • d2) ((2 : ℝ) • d3)
  have k9 := tri d1 ((2 : ℝ) • d2)
  rw [nrm_scale _ (by norm_num)] at k1 k2 k3 k8 k9
  have := q d1
  have := q d2
  have := q d3
  have := q (Z d1)
  have := q (Z d2)
  have := q (Z (Z d1))
  have hs : nrm B (d1 + (2 : ℝ) • d2 + (2 : ℝ) • d3 + d4 + Z d1 + Z d2 + Z d3 + (1 / 2 : ℝ) • Z (Z d1) + (1 / 2 : ℝ) • Z (Z d2) +
    (1 / 4 : ℝ) • Z (Z (Z d1))) ≤ 24 * e := by linarith [n0 d1]
  calc dt / 6 * _ ≤ dt / 6 * (24 * e) := mul_le_mul_of_nonneg_left hs (by positivity)
    _ = 4 * (dt * e) := by ring

/-- One explicit step with an operator `R` close to `A`. -/
theorem step_defect {F : Tdo V S} {A : V →ₗ[ℝ] V} {R : V → V} (hF : ∀ t x, F.mult t x = R x) {B : V →ₗ[ℝ] V →ₗ[ℝ] ℝ}
    (hd : Diss B A) {dt δ : ℝ} (hdt : 0 ≤ dt) (hδ : 0 ≤ δ) (hsm : dt * δ ≤ 1 / 4)
    (hb : ∀ u, B ((dt • A) u) ((dt • A) u) ≤ 1 / 16 * B u u) (hR : ∀ v, nrm B (R v - A v) ≤ δ * nrm B v) (x : V) (t : ℝ) :
    ∃ w, (rk4 F x t dt).1 = rkPoly (dt • A) x + w ∧ nrm B w ≤ 4 * (dt * δ) * nrm B x := by
  have tri := nrm_add_le hd.symm hd.nonneg
  have n0 := nrm_nonneg B
  have q := nrm_quarter hb
  -- the rate times the step is at most half of the state
  have half : ∀ v, nrm B (dt • R v) ≤ 1 / 2 * nrm B v := by
    intro v
    have e : dt • R v = (dt • A) v + dt • (R v - A v) := by rw [LinearMap.smul_apply, smul_sub]; abel
    have h1 := tri ((dt • A) v) (dt • (R v - A v))
    rw [← e, nrm_scale _ hdt (R v - A v)] at h1
    have h2 := mul_le_mul_of_nonneg_left (hR v) hdt
    have h3 := mul_le_mul_of_nonneg_right hsm (n0 v)
    have h4 := q v
    nlinarith
  obtain ⟨k1, e1⟩ : ∃ k, k = R x := ⟨_, rfl⟩
  obtain ⟨k2, e2⟩ : ∃ k, k = R (x + (dt / 2) • k1) := ⟨_, rfl⟩
  obtain ⟨k3, e3⟩ : ∃ k, k = R (x + (dt / 2) • k2) := ⟨_, rfl⟩
  obtain ⟨k4, e4⟩ : ∃ k, k = R (x + dt • k3) := ⟨_, rfl⟩
  have eh : ∀ k : V, (dt / 2) • k = (1 / 2 : ℝ) • dt • k := fun k => by module
  have s2 : nrm B (x + (dt / 2) • k1) ≤ 2 * nrm B x := by
    have h1 := tri x ((dt / 2) • k1)
    rw [eh, nrm_scale _ (by norm_num), e1] at h1
    rw [eh, e1]
    linarith [half x, n0 x]
  have s2' : nrm B (x + (dt / 2) • k1) ≤ 5 / 4 * nrm B x := by
    have h1 := tri x ((dt / 2) • k1)
    rw [eh, nrm_scale _ (by norm_num), e1] at h1
    rw [eh, e1]
    linarith [half x, n0 x]
  have s3 : nrm B (x + (dt / 2) • k2) ≤ 3 / 2 * nrm B x := by
    have h1 := tri x ((dt / 2) • k2)
    rw [eh k2, nrm_scale _ (by norm_num), e2] at h1
    rw [eh k2, e2]
    linarith [half (x + (dt / 2) • k1), n0 x]
  have s4 : nrm B (x + dt • k3) ≤ 2 * nrm B x := by
    have h1 := tri x (dt • k3)
    rw [e3] at h1
    rw [e3]
    linarith [half (x + (dt / 2) • k2), n0 x]
  have hdef := rk4_defect A x k1 k2 k3 k4 (R x - A x) (R (x + (dt / 2) • k1) - A (x + (dt / 2) • k1))
    (R (x + (dt / 2) • k2) - A (x + (dt / 2) • k2)) (R (x + dt • k3) - A (x + dt • k3)) dt
    (by rw [e1]; abel) (by rw [e2]; abel) (by rw [e3]; abel) (by rw [e4]; abel)
  have d1 : nrm B (R x - A x) ≤ 2 * (δ * nrm B x) := (hR _).trans (by nlinarith [mul_nonneg hδ (n0 x)])
  have d2 := (hR (x + (dt / 2) • k1)).trans (show _ ≤ 2 * (δ * nrm B x) by nlinarith [mul_le_mul_of_nonneg_left s2 hδ])
  have d3 := (hR (x + (dt / 2) • k2)).trans (show _ ≤ 2 * (δ * nrm B x) by
    nlinarith [mul_le_mul_of_nonneg_left s3 hδ, mul_nonneg hδ (n0 x)])
  have d4 := (hR (x + dt • k3)).trans (show _ ≤ 2 * (δ * nrm B x) by nlinarith [mul_le_mul_of_nonneg_left s4 hδ])
  have hle := rkDefect_le (hd.smul hdt) hb hdt d1 d2 d3 d4
  refine ⟨_, ?_, hle.trans (le_of_eq (by ring))⟩
  rw [← hdef]
  simp only [rk4, hF]
  rw [← e1, ← e2, ← e3, ← e4]

theorem run_linear (q : Sdirk ℝ) {F : Tdo V S} {A : V →ₗ[ℝ] V} (h : ∀ t x, F.mult t x = A x) (dt : ℝ) (n : Nat) :
    ∀ (x : V) (t : ℝ) (s : S), run q .rk4 F (List.replicate n dt) x t s = some ((rkPoly (dt • A))^[n] x, t + n * dt, s) := by
  induction n with
  | zero => intro x t s; simp [run]
  | succ n ih =>
    intro x t s
    have e : (rk4 F x t dt).1 = rkPoly (dt • A) x := by
      simp only [rk4, rkPoly, h, map_add, map_smul, LinearMap.smul_apply]
      module
    simp only [List.replicate_succ, run, step, Option.bind_eq_bind, Option.bind_some]
    rw [ih, e, show (rk4 F x t dt).2 = t + dt from rfl, Function.iterate_succ, Function.comp_apply]
    push_cast
    rw [show t + dt + n * dt = t + (n + 1) * dt by ring]

/-- Equal explicit steps with an operator close to `A`. -/
theorem run_defect (q : Sdirk ℝ) {F : Tdo V S} {A : V →ₗ[ℝ] V} {R : V → V} (hF : ∀ t x, F.mult t x = R x)
    {B : V →ₗ[ℝ] V →ₗ[ℝ] ℝ} (hd : Diss B A) {dt δ : ℝ} (hdt : 0 ≤ dt) (hδ : 0 ≤ δ) (hsm : dt * δ ≤ 1 / 4)
    (hb : ∀ u, B ((dt • A) u) ((dt • A) u) ≤ 1 / 16 * B u u) (hR : ∀ v, nrm B (R v - A v) ≤ δ * nrm B v) (x : V) (t : ℝ) (s : S)
    (n : Nat) : ∃ y w, run q .rk4 F (List.replicate n dt) x t s = some (y, t + n * dt, s) ∧
      y = (rkPoly (dt • A))^[n] x + w ∧
      ∀ k, nrm B ((rkPoly (dt • A))^[k] w) ≤ Real.sqrt 2 * nrm B x * ((1 + Real.sqrt 2 * (4 * (dt * δ))) ^ n - 1) := by
  have r0 := Real.sqrt_nonneg 2
  have tri := nrm_add_le hd.symm hd.nonneg
  induction n with
  | zero =>
    refine ⟨x, 0, by simp [run], by simp, fun k => ?_⟩
    have := nrm_two (rkPoly_power (hd.smul hdt) hb k 0)
    simpa [nrm] using this
  | succ n ih =>
    obtain ⟨y, w, hy, e, hw⟩ := ih
    obtain ⟨d, hd1, hd2⟩ := step_defect hF hd hdt hδ hsm hb hR y (t + n * dt)
    have hp1 : rkPoly (dt • A) y = (rkPoly (dt • A))^[n + 1] x + rkPoly (dt • A) w := by
      have := rkPoly_iter_add (dt • A) 1 ((rkPoly (dt • A))^[n] x) w
      simp only [Function.iterate_one] at this
      rw [e, this, Function.iterate_succ', Function.comp_apply]
    refine ⟨(rk4 F y (t + n * dt) dt).1, rkPoly (dt • A) w + d, ?_, ?_, fun k => ?_⟩
    · rw [List.replicate_succ', run_append, hy, Option.bind_some]
      simp only [run, step, Option.bind_eq_bind, Option.bind_some]
      rw [show (rk4 F y (t + n * dt) dt).2 = t + n * dt + dt from rfl]
      push_cast
      rw [show t + n * dt + dt = t + (n + 1) * dt by ring]
    · rw [hd1, hp1, add_assoc]
    · rw [rkPoly_iter_add]
      have h1 := tri ((rkPoly (dt • A))^[k] (rkPoly (dt • A) w)) ((rkPoly (dt • A))^[k] d)
      have h2 := hw (k + 1)
      rw [Function.iterate_succ, Function.comp_apply] at h2
      have h3 := nrm_two (rkPoly_power (hd.smul hdt) hb k d)
      have h4 : nrm B y ≤ Real.sqrt 2 * nrm B x * (1 + Real.sqrt 2 * (4 * (dt * δ))) ^ n := by
        have k1 := tri ((rkPoly (dt • A))^[n] x) w
        have k2 := nrm_two (rkPoly_power (hd.smul hdt) hb n x)
        have k3 := hw 0
        rw [Function.iterate_zero, id_eq] at k3
        rw [e]
        linarith
      have hg : 0 ≤ 4 * (dt * δ) := by positivity
      have h5 := mul_le_mul_of_nonneg_left (hd2.trans (mul_le_mul_of_nonneg_left h4 hg)) r0
      rw [pow_succ]
      linarith

/-- The same with a shorter last step, compared with the operator `A` itself. -/
theorem run_defect_last (q : Sdirk ℝ) {F F' : Tdo V S} {A : V →ₗ[ℝ] V} {R : V → V} (hA : ∀ t x, F.mult t x = A x)
    (hF : ∀ t x, F'.mult t x = R x) {B : V →ₗ[ℝ] V →ₗ[ℝ] ℝ} (hd : Diss B A) {dt last δ : ℝ} (h0 : 0 ≤ last) (hl : last ≤ dt)
    (hδ : 0 ≤ δ) (hsm : dt * δ ≤ 1 / 4) (hb : ∀ u, B ((dt • A) u) ((dt • A) u) ≤ 1 / 16 * B u u)
    (hb' : ∀ u, B ((last • A) u) ((last • A) u) ≤ 1 / 16 * B u u) (hR : ∀ v, nrm B (R v - A v) ≤ δ * nrm B v) (n : Nat)
    (x : V) (t : ℝ) (s s' : S) : ∃ y y', run q .rk4 F (List.replicate n dt ++ [last]) x t s = some (y, t + n * dt + last, s) ∧
      run q .rk4 F' (List.replicate n dt ++ [last]) x t s' = some (y', t + n * dt + last, s') ∧
      nrm B (y' - y) ≤ 2 * nrm B x * (Real.exp (8 * δ * (n * dt + last)) - 1) := by
  have hdt : 0 ≤ dt := h0.trans hl
  have r0 := Real.sqrt_nonneg 2
  have r2 : Real.sqrt 2 ≤ 2 := by rw [Real.sqrt_le_left (by norm_num)]; norm_num
  have tri := nrm_add_le hd.symm hd.nonneg
  have n0 := nrm_nonneg B x
  obtain ⟨y, w, hy, e, hw⟩ := run_defect q hF hd hdt hδ hsm hb hR x t s' n
  obtain ⟨d, hd1, hd2⟩ := step_defect hF hd h0 hδ ((mul_le_mul_of_nonneg_right hl hδ).trans hsm) hb' hR y (t + n * dt)
  have e1 : ∀ z, (rk4 F z (t + n * dt) last).1 = rkPoly (last • A) z := by
    intro z
    simp only [rk4, rkPoly, hA, map_add, map_smul, LinearMap.smul_apply]
    module
  refine ⟨rkPoly (last • A) ((rkPoly (dt • A))^[n] x), (rk4 F' y (t + n * dt) last).1, ?_, ?_, ?_⟩
  · rw [run_append, run_linear q hA, Option.bind_some]
    simp only [run, step, Option.bind_eq_bind, Option.bind_some]
    rw [e1]
    rfl
  · rw [run_append, hy, Option.bind_some]
    simp only [run, step, Option.bind_eq_bind, Option.bind_some]
    rfl
  · have hp : rkPoly (last • A) y = rkPoly (last • A) ((rkPoly (dt • A))^[n] x) + rkPoly (last • A) w := by
      have := rkPoly_iter_add (last • A) 1 ((rkPoly (dt • A))^[n] x) w
      simp only [Function.iterate_one] at this
      rw [e, this]
    have hdiff : (rk4 F' y (t + n * dt) last).1 - rkPoly (last • A) ((rkPoly (dt • A))^[n] x) = rkPoly (last • A) w + d := by
      rw [hd1, hp]; abel
    rw [hdiff]
    have k1 := tri (rkPoly (last • A) w) d
    have k2 := nrm_two (rk4_once (hd.smul h0) hb' (rkPoly (last • A)) (fun _ => rfl) w)
    have k3 := hw 0
    rw [Function.iterate_zero, id_eq] at k3
    have k4 : nrm B y ≤ Real.sqrt 2 * nrm B x * (1 + Real.sqrt 2 * (4 * (dt * δ))) ^ n := by
      have j1 := tri ((rkPoly (dt • A))^[n] x) w
      have j2 := nrm_two (rkPoly_power (hd.smul hdt) hb n x)
      rw [e]
      linarith
    obtain ⟨G, hG⟩ : ∃ G, G = (1 + Real.sqrt 2 * (4 * (dt * δ))) ^ n := ⟨_, rfl⟩
    rw [← hG] at k3 k4
    have hx : 1 + Real.sqrt 2 * (4 * (dt * δ)) ≤ Real.exp (8 * δ * dt) := by
      have := Real.add_one_le_exp (8 * δ * dt)
      nlinarith [mul_le_mul_of_nonneg_right r2 (show 0 ≤ 4 * (dt * δ) by positivity)]
    have hG1 : G ≤ Real.exp (8 * δ * (n * dt)) := by
      rw [hG, show 8 * δ * (n * dt) = n * (8 * δ * dt) by ring, Real.exp_nat_mul]
      exact pow_le_pow_left₀ (by positivity) hx n
    have hG0 : 0 ≤ G := by rw [hG]; positivity
    have hlast : 1 + 8 * δ * last ≤ Real.exp (8 * δ * last) := by linarith [Real.add_one_le_exp (8 * δ * last)]
    have hprod : G * (1 + 8 * δ * last) ≤ Real.exp (8 * δ * (n * dt + last)) := by
      rw [show 8 * δ * (n * dt + last) = 8 * δ * (n * dt) + 8 * δ * last by ring, Real.exp_add]
      exact mul_le_mul hG1 hlast (by positivity) (Real.exp_pos _).le
    have k5 := mul_le_mul_of_nonneg_left k3 r0
    have k6 : Real.sqrt 2 * (Real.sqrt 2 * nrm B x * (G - 1)) = 2 * nrm B x * (G - 1) := by
      rw [← mul_assoc, ← mul_assoc, Real.mul_self_sqrt (by norm_num)]
    have k7 := mul_le_mul_of_nonneg_left k4 (show 0 ≤ 4 * (last * δ) by positivity)
    have k8 : 4 * (last * δ) * (Real.sqrt 2 * nrm B x * G) ≤ 4 * (last * δ) * (2 * nrm B x * G) :=
      mul_le_mul_of_nonneg_left (mul_le_mul_of_nonneg_right (mul_le_mul_of_nonneg_right r2 n0) hG0) (by positivity)
    have k9 := mul_le_mul_of_nonneg_left hprod (show 0 ≤ 2 * nrm B x by positivity)
    have k10 : 0 ≤ last * δ * (nrm B x * G) := by positivity
    nlinarith

end

end Dgtd.TimeInt
