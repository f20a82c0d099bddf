/-
Effect of a change of the sources on explicit steps.
-/
import Verif.Props.TimeIntRun

set_option linter.unusedSectionVars false

namespace Dgtd.TimeInt

open Implicit

section
variable {V S : Type} [AddCommGroup V] [Module ℝ V]

/-- What a change of the sources by `a`, `b`, `c` at the beginning, middle and end of a step adds to it. -/
noncomputable def rkAdd (Z : V →ₗ[ℝ] V) (dt : ℝ) (a b c : V) : V :=
  (dt / 6) • (a + (4 : ℝ) • b + c + Z a + (2 : ℝ) • Z b + (1 / 2 : ℝ) • Z (Z a) + (1 / 2 : ℝ) • Z (Z b) +
    (1 / 4 : ℝ) • Z (Z (Z a)))

theorem rk4_change {F F' : Tdo V S} {A : V →ₗ[ℝ] V} {src src' : ℝ → V} (h : ∀ t x, F.mult t x = A x + src t)
    (h' : ∀ t x, F'.mult t x = A x + src' t) (x x' : V) (t dt : ℝ) :
    (rk4 F x t dt).1 - (rk4 F' x' t dt).1 = rkPoly (dt • A) (x - x') +
      rkAdd (dt • A) dt (src t - src' t) (src (t + dt / 2) - src' (t + dt / 2)) (src (t + dt) - src' (t + dt)) := by
  simp only [rk4, rkPoly, rkAdd, h, h', map_add, map_sub, map_smul, LinearMap.smul_apply]
  module

theorem nrm_scale {B : V →ₗ[ℝ] V →ₗ[ℝ] ℝ} (c : ℝ) (hc : 0 ≤ c) (u : V) : nrm B (c • u) = c * nrm B u := by
  unfold nrm
  rw [map_smul, map_smul, LinearMap.smul_apply, smul_eq_mul, smul_eq_mul, ← mul_assoc, Real.sqrt_mul (mul_nonneg hc hc),
    Real.sqrt_mul_self hc]

theorem nrm_quarter {B : V →ₗ[ℝ] V →ₗ[ℝ] ℝ} {Z : V →ₗ[ℝ] V} (hb : ∀ u, B (Z u) (Z u) ≤ 1 / 16 * B u u) (u : V) :
    nrm B (Z u) ≤ 1 / 4 * nrm B u := by
  unfold nrm
  calc Real.sqrt (B (Z u) (Z u)) ≤ Real.sqrt (1 / 16 * B u u) := Real.sqrt_le_sqrt (hb u)
    _ = 1 / 4 * Real.sqrt (B u u) := by
      rw [Real.sqrt_mul (by norm_num), show (1 / 16 : ℝ) = (1 / 4) ^ 2 by norm_num, Real.sqrt_sq (by norm_num)]

theorem rkAdd_le {B : V →ₗ[ℝ] V →ₗ[ℝ] ℝ} {Z : V →ₗ[ℝ] V} (h : Diss B Z) (hb : ∀ u, B (Z u) (Z u) ≤ 1 / 16 * B u u)
    {dt e : ℝ} (hdt : 0 ≤ dt) {a b c : V} (ha : nrm B a ≤ e) (hb' : nrm B b ≤ e) (hc : nrm B c ≤ e) :
    nrm B (rkAdd Z dt a b c) ≤ 2 * (dt * e) := by
  have tri := nrm_add_le h.symm h.nonneg
  have q := nrm_quarter hb
  have n0 := nrm_nonneg B
  unfold rkAdd
  rw [nrm_scale _ (by positivity)]
  have k1 := tri (a + (4 : ℝ) • b + c + Z a + (2 : ℝ) • Z b + (1 / 2 : ℝ) • Z (Z a) + (1 / 2 : ℝ) • Z (Z b)) ((1 / 4 : ℝ) • Z (Z (Z a)))
  have k2 := tri (a + (4 : ℝ) • b + c + Z a + (2 : ℝ) • Z b + (1 / 2 : ℝ) • Z (Z a)) ((1 / 2 : ℝ) • Z (Z b))
  have k3 := tri (a + (4 : ℝ) • b + c + Z a + (2 : ℝ) • Z b) ((1 / 2 : ℝ) • Z (Z a))
  have k4 := tri (a + (4 : ℝ) • b + c + Z a) ((2 : ℝ) • Z b)
  have k5 := tri (a + (4 : ℝ) • b + c) (Z a)
  have k6 := tri (a + (4 : ℝ) • b) c
  have k7 := tri a ((4 : ℝ) • b)
  rw [nrm_scale _ (by norm_num)] at k1 k2 k3 k4 k7
  have := q a
  have := q b
  have := q (Z a)
  have := q (Z b)
  have := q (Z (Z a))
  have hs : nrm B (a + (4 : ℝ) • b + c + Z a + (2 : ℝ) • Z b + (1 / 2 : ℝ) • Z (Z a) + (1 / 2 : ℝ) • Z (Z b) +
    (1 / 4 : ℝ) • Z (Z (Z a))) ≤ 12 * e := by linarith [n0 a]
  calc dt / 6 * _ ≤ dt / 6 * (12 * e) := mul_le_mul_of_nonneg_left hs (by positivity)
    _ = 2 * (dt * e) := by ring

/-- Equal explicit steps from the same fields under sources that differ by at most `e`. -/
theorem run_change (q : Sdirk ℝ) {F F' : Tdo V S} {A : V →ₗ[ℝ] V} {src src' : ℝ → V} (h : ∀ t x, F.mult t x = A x + src t)
    (h' : ∀ t x, F'.mult t x = A x + src' t) {B : V →ₗ[ℝ] V →ₗ[ℝ] ℝ} (hd : Diss B A) {dt e : ℝ} (hdt : 0 ≤ dt)
    (hb : ∀ u, B ((dt • A) u) ((dt • A) u) ≤ 1 / 16 * B u u) (he : ∀ t, nrm B (src t - src' t) ≤ e) (n : Nat) :
    ∀ (x x' : V) (t : ℝ) (s s' : S), ∃ y y' w, run q .rk4 F (List.replicate n dt) x t s = some (y, t + n * dt, s) ∧
      run q .rk4 F' (List.replicate n dt) x' t s' = some (y', t + n * dt, s') ∧
      y - y' = (rkPoly (dt • A))^[n] (x - x') + w ∧ nrm B w ≤ Real.sqrt 2 * (n * (2 * (dt * e))) := by
  induction n with
  | zero => intro x x' t s s'; exact ⟨x, x', 0, by simp [run], by simp [run], by simp, by simp [nrm]⟩
  | succ n ih =>
    intro x x' t s s'
    obtain ⟨y, y', w, r, r', hy, hw⟩ := ih (rk4 F x t dt).1 (rk4 F' x' t dt).1 (t + dt) s s'
    have hc := rk4_change h h' x x' t dt
    have hl := rkAdd_le (hd.smul hdt) hb hdt (he t) (he (t + dt / 2)) (he (t + dt))
    generalize rkAdd (dt • A) dt (src t - src' t) (src (t + dt / 2) - src' (t + dt / 2)) (src (t + dt) - src' (t + dt)) = d
      at hc hl
    have ht : t + ((n + 1 : Nat) : ℝ) * dt = t + dt + n * dt := by push_cast; ring
    refine ⟨y, y', (rkPoly (dt • A))^[n] d + w, ?_, ?_, ?_, ?_⟩
    · simp only [List.replicate_succ, run, step, Option.bind_eq_bind, Option.bind_some]
      rw [show (rk4 F x t dt).2 = t + dt from rfl, r, ht]
    · simp only [List.replicate_succ, run, step, Option.bind_eq_bind, Option.bind_some]
      rw [show (rk4 F' x' t dt).2 = t + dt from rfl, r', ht]
    · rw [hy, hc, Function.iterate_succ, Function.comp_apply, ← add_assoc, ← rkPoly_iter_add]
    · have h1 := nrm_two (rkPoly_power (hd.smul hdt) hb n d)
      have h5 := nrm_add_le hd.symm hd.nonneg ((rkPoly (dt • A))^[n] d) w
      have h6 := mul_le_mul_of_nonneg_left hl (Real.sqrt_nonneg 2)
      push_cast
      nlinarith

/-- The same with a shorter last step. -/
theorem run_change_last (q : Sdirk ℝ) {F F' : Tdo V S} {A : V →ₗ[ℝ] V} {src src' : ℝ → V} (h : ∀ t x, F.mult t x = A x + src t)
    (h' : ∀ t x, F'.mult t x = A x + src' t) {B : V →ₗ[ℝ] V →ₗ[ℝ] ℝ} (hd : Diss B A) {dt last e : ℝ} (h0 : 0 ≤ last)
    (hl : last ≤ dt) (hb : ∀ u, B ((dt • A) u) ((dt • A) u) ≤ 1 / 16 * B u u)
    (hb' : ∀ u, B ((last • A) u) ((last • A) u) ≤ 1 / 16 * B u u) (he : ∀ t, nrm B (src t - src' t) ≤ e) (n : Nat)
    (x : V) (t : ℝ) (s s' : S) : ∃ y y', run q .rk4 F (List.replicate n dt ++ [last]) x t s = some (y, t + n * dt + last, s) ∧
      run q .rk4 F' (List.replicate n dt ++ [last]) x t s' = some (y', t + n * dt + last, s') ∧
      nrm B (y - y') ≤ 4 * ((n * dt + last) * e) := by
  obtain ⟨y, y', w, r, r', hy, hw⟩ := run_change q h h' hd (h0.trans hl) hb he n x x t s s'
  refine ⟨(rk4 F y (t + n * dt) last).1, (rk4 F' y' (t + n * dt) last).1, ?_, ?_, ?_⟩
  · rw [run_append, r, Option.bind_some]
    simp only [run, step, Option.bind_eq_bind, Option.bind_some]
    rfl
  · rw [run_append, r', Option.bind_some]
    simp only [run, step, Option.bind_eq_bind, Option.bind_some]
    rfl
  · rw [rk4_change h h']
    have hz : (rkPoly (dt • A))^[n] (x - x) = 0 := by
      rw [sub_self]
      clear hy hw r r'
      induction n with
      | zero => rfl
      | succ n ih => rw [Function.iterate_succ, Function.comp_apply]; simpa [rkPoly] using ih
    rw [hz, zero_add] at hy
    rw [hy]
    have k1 := nrm_two (rk4_once (hd.smul h0) hb' (rkPoly (last • A)) (fun _ => rfl) w)
    have k2 := rkAdd_le (hd.smul h0) hb' h0 (he (t + n * dt)) (he (t + n * dt + last / 2)) (he (t + n * dt + last))
    have k3 := nrm_add_le hd.symm hd.nonneg (rkPoly (last • A) w) (rkAdd (last • A) last (src (t + n * dt) - src' (t + n * dt))
      (src (t + n * dt + last / 2) - src' (t + n * dt + last / 2)) (src (t + n * dt + last) - src' (t + n * dt + last)))
    have k4 := mul_le_mul_of_nonneg_left hw (Real.sqrt_nonneg 2)
    have k5 : Real.sqrt 2 * (Real.sqrt 2 * (n * (2 * (dt * e)))) = 2 * (n * (2 * (dt * e))) := by
      rw [← mul_assoc, Real.mul_self_sqrt (by norm_num)]
    have he0 : 0 ≤ e := (nrm_nonneg B _).trans (he t)
    have k6 : 0 ≤ last * e := mul_nonneg h0 he0
    linarith

end

end Dgtd.TimeInt
