/-
Steps whose implicit equations are solved approximately.
-/
import Verif.Spec.Gmres
import Verif.Lemmas.TimeIntPerturb

set_option linter.unusedSectionVars false

namespace Dgtd.Gmres

open Dgtd.TimeInt Dgtd.TimeInt.Spec Spec
open Dgtd.Implicit (Sdirk)

variable {V S : Type} [NormedAddCommGroup V] [NormedSpace ℝ V] [FiniteDimensional ℝ V]

/-- One solve. -/
lemma watch_solve {F : Tdo V S} {A : V →ₗ[ℝ] V} {src : ℝ → V} (hm : ∀ t x, F.mult t x = A x + src t)
    (hF : ∀ t g x s, 0 ≤ g → ∃ k s', F.implicitSolve t g x s = some (k, s')) (B : V →ₗ[ℝ] V →ₗ[ℝ] ℝ) (t : ℝ) {g : ℝ} (hg : 0 ≤ g) (x : V) (s : S) (e : ℝ) :
    ∃ k s' e' d, F.implicitSolve t g x s = some (k, s') ∧ (watch (nrm B) F).implicitSolve t g x (s, e) = some (k, s', e') ∧ e ≤ e' ∧
      nrm B d ≤ e' ∧ k = A (x + g • k) + (src t - d) := by
  obtain ⟨k, s', h⟩ := hF t g x s hg
  refine ⟨k, s', max e (nrm B (missing (F.mult t) g x k)), missing (F.mult t) g x k, h, ?_, le_max_left _ _, le_max_right _ _, ?_⟩
  · simp only [watch, h, Option.map_some]
  · unfold missing
    rw [hm]
    abel

/-- One step. -/
theorem watch_step {q : Sdirk ℝ} (hq : Ideal33 q) {F : Tdo V S} {A : V →ₗ[ℝ] V} {src : ℝ → V} (hm : ∀ t x, F.mult t x = A x + src t)
    (hF : ∀ t g x s, 0 ≤ g → ∃ k s', F.implicitSolve t g x s = some (k, s')) (B : V →ₗ[ℝ] V →ₗ[ℝ] ℝ) {o : Ode} (ho : o ≠ .rk4) (x : V)
    (t dt : ℝ) (hdt : 0 ≤ dt) (s : S) (e : ℝ) (he : 0 ≤ e) :
    ∃ y s' e', step q o F x t dt s = some (y, t + dt, s') ∧ step q o (watch (nrm B) F) x t dt (s, e) = some (y, t + dt, s', e') ∧ e ≤ e' ∧
      ∃ d1 d2 d3, nrm B d1 ≤ e' ∧ nrm B d2 ≤ e' ∧ nrm B d3 ≤ e' ∧
        TimeInt.Rel q o (dt • A) (dt • (src (stageTimes q o t dt).1 - d1)) (dt • (src (stageTimes q o t dt).2.1 - d2))
          (dt • (src (stageTimes q o t dt).2.2 - d3)) x y := by
  have hqa : 0 ≤ q.a * dt := mul_nonneg (by linarith [hq.lo]) hdt
  have hga : 0 ≤ gamma23 * dt := mul_nonneg (by linarith [gamma23_bounds.1]) hdt
  have h4a : 0 ≤ a34 * dt := mul_nonneg (by linarith [is34.lo]) hdt
  have slope : ∀ {x k r : V} {g : ℝ}, k = A (x + g • k) + r → dt • k = (dt • A) (x + g • k) + dt • r := by
    intro x k r g e
    rw [LinearMap.smul_apply, ← smul_add]
    exact congrArg (dt • ·) e
  have z0 : nrm B (0 : V) = 0 := by simp [nrm]
  have S := fun t (g : ℝ) (hg : 0 ≤ g) x s e => watch_solve hm hF B t hg x s e
  have hw : ∀ t x, (watch (nrm B) F).mult t x = A x + src t := hm
  cases o with
  | rk4 => exact absurd rfl ho
  | backwardEuler =>
    obtain ⟨k, s1, e1, d1, f1, w1, l1, n1, k1⟩ := S (t + dt) dt hdt x s e
    refine ⟨x + dt • k, s1, e1, ?_, ?_, l1, d1, 0, 0, n1, by rw [z0]; linarith, by rw [z0]; linarith, ?_⟩
    · simp only [step, backwardEuler, f1, Option.bind_eq_bind, Option.bind_some]
    · simp only [step, backwardEuler, w1, Option.bind_eq_bind, Option.bind_some]
    · simp only [TimeInt.Rel, stageTimes]
      rw [← slope k1]
  | trapezoidal =>
    obtain ⟨k, s1, e1, d1, f1, w1, l1, n1, k1⟩ := S (t + dt) (dt / 2) (by linarith) (x + (dt / 2) • (A x + src t)) s e
    refine ⟨x + (dt / 2) • (A x + src t) + (dt / 2) • k, s1, e1, ?_, ?_, l1, 0, d1, 0, by rw [z0]; linarith, n1, by rw [z0]; linarith, ?_⟩
    · simp only [step, trapezoidal, hm, f1, Option.bind_eq_bind, Option.bind_some]
    · simp only [step, trapezoidal, hw, w1, Option.bind_eq_bind, Option.bind_some]
    · simp only [TimeInt.Rel, stageTimes]
      rw [← slope k1, LinearMap.smul_apply]
      module
  | implicitMidpoint =>
    obtain ⟨k, s1, e1, d1, f1, w1, l1, n1, k1⟩ := S (t + dt / 2) (dt / 2) (by linarith) x s e
    refine ⟨x + dt • k, s1, e1, ?_, ?_, l1, d1, 0, 0, n1, by rw [z0]; linarith, by rw [z0]; linarith, x + (dt / 2) • k, ?_, ?_⟩
    · simp only [step, implicitMidpoint, f1, Option.bind_eq_bind, Option.bind_some]
    · simp only [step, implicitMidpoint, w1, Option.bind_eq_bind, Option.bind_some]
    · simp only [stageTimes]
      rw [← slope k1]
      module
    · simp only [stageTimes]
      rw [← slope k1]
  | sdirk33 =>
    obtain ⟨k1, s1, e1, d1, f1, w1, l1, n1, j1⟩ := S (t + q.a * dt) (q.a * dt) hqa x s e
    obtain ⟨k2, s2, e2, d2, f2, w2, l2, n2, j2⟩ := S (t + q.c * dt) (q.a * dt) hqa (x + ((q.c - q.a) * dt) • k1) s1 e1
    obtain ⟨k3, s3, e3, d3, f3, w3, l3, n3, j3⟩ := S (t + dt) (q.a * dt) hqa
      (x + (q.b * dt) • k1 + ((1 - q.a - q.b) * dt) • k2) s2 e2
    refine ⟨x + (q.b * dt) • k1 + ((1 - q.a - q.b) * dt) • k2 + (q.a * dt) • k3, s3, e3, ?_, ?_, by linarith, d1, d2, d3,
      by linarith, by linarith, n3, x + (q.a * dt) • k1, x + ((q.c - q.a) * dt) • k1 + (q.a * dt) • k2, ?_, ?_, ?_⟩
    · simp only [step, TimeInt.sdirk33, f1, f2, f3, Option.bind_eq_bind, Option.bind_some]
    · simp only [step, TimeInt.sdirk33, w1, w2, w3, Option.bind_eq_bind, Option.bind_some]
    all_goals
      simp only [stageTimes]
      try rw [← slope j3]
      try rw [← slope j2]
      try rw [← slope j1]
      module
  | sdirk23 =>
    obtain ⟨k1, s1, e1, d1, f1, w1, l1, n1, j1⟩ := S (t + gamma23 * dt) (gamma23 * dt) hga x s e
    obtain ⟨k2, s2, e2, d2, f2, w2, l2, n2, j2⟩ := S (t + (1 - gamma23) * dt) (gamma23 * dt) hga
      (x + ((1 - 2 * gamma23) * dt) • k1) s1 e1
    refine ⟨x + (dt / 2) • k1 + (dt / 2) • k2, s2, e2, ?_, ?_, by linarith, d1, d2, 0, by linarith, n2, by rw [z0]; linarith,
      x + (gamma23 * dt) • k1, x + ((1 - 2 * gamma23) * dt) • k1 + (gamma23 * dt) • k2, ?_, ?_, ?_⟩
    · simp only [step, sdirk23, f1, f2, Option.bind_eq_bind, Option.bind_some]
    · simp only [step, sdirk23, w1, w2, Option.bind_eq_bind, Option.bind_some]
    all_goals
      simp only [stageTimes]
      try rw [← slope j2]
      try rw [← slope j1]
      module
  | sdirk34 =>
    obtain ⟨k1, s1, e1, d1, f1, w1, l1, n1, j1⟩ := S (t + a34 * dt) (a34 * dt) h4a x s e
    obtain ⟨k2, s2, e2, d2, f2, w2, l2, n2, j2⟩ := S (t + 1 / 2 * dt) (a34 * dt) h4a (x + ((1 / 2 - a34) * dt) • k1) s1 e1
    obtain ⟨k3, s3, e3, d3, f3, w3, l3, n3, j3⟩ := S (t + (1 - a34) * dt) (a34 * dt) h4a
      (x + ((2 * a34) * dt) • k1 + ((1 - 4 * a34) * dt) • k2) s2 e2
    refine ⟨x + (b34 * dt) • k1 + ((1 - 2 * b34) * dt) • k2 + (b34 * dt) • k3, s3, e3, ?_, ?_, by linarith, d1, d2, d3,
      by linarith, by linarith, n3, x + (a34 * dt) • k1, x + ((1 / 2 - a34) * dt) • k1 + (a34 * dt) • k2,
      x + ((2 * a34) * dt) • k1 + ((1 - 4 * a34) * dt) • k2 + (a34 * dt) • k3, ?_, ?_, ?_, ?_⟩
    · simp only [step, sdirk34, f1, f2, f3, Option.bind_eq_bind, Option.bind_some]
    · simp only [step, sdirk34, w1, w2, w3, Option.bind_eq_bind, Option.bind_some]
    all_goals
      simp only [stageTimes]
      try rw [← slope j3]
      try rw [← slope j2]
      try rw [← slope j1]
      module

/-- A run with approximate solves and one with exact solves. -/
theorem watch_run {q : Sdirk ℝ} (hq : Ideal33 q) {F : Tdo V S} {A : V →ₗ[ℝ] V} {src : ℝ → V} (hm : ∀ t x, F.mult t x = A x + src t)
    (hF : ∀ t g x s, 0 ≤ g → ∃ k s', F.implicitSolve t g x s = some (k, s')) {B : V →ₗ[ℝ] V →ₗ[ℝ] ℝ} (hd : Diss B A) {S' : Type} {F' : Tdo V S'}
    {I : S' → Prop} (h : Solves F' A src I) {o : Ode} (ho : o ≠ .rk4) (dts : List ℝ) :
    ∀ (x x' : V) (t : ℝ) (s : S) (e : ℝ) (s' : S'), 0 ≤ e → (∀ dt ∈ dts, 0 ≤ dt) → I s' →
      ∃ y y' r e' r', run q o F dts x t s = some (y, t + dts.sum, r) ∧
        run q o (watch (nrm B) F) dts x t (s, e) = some (y, t + dts.sum, r, e') ∧
        run q o F' dts x' t s' = some (y', t + dts.sum, r') ∧ e ≤ e' ∧
        nrm B (y - y') ≤ nrm B (x - x') + 10 * e' * dts.sum := by
  induction dts with
  | nil =>
    intro x x' t s e s' _ _ _
    exact ⟨x, x', s, e, s', by simp [run], by simp [run], by simp [run], le_refl _, by simp⟩
  | cons dt rest ih =>
    intro x x' t s e s' he hp hs
    have hdt := hp dt List.mem_cons_self
    have hr : 0 ≤ rest.sum := List.sum_nonneg fun d hd => hp d (List.mem_cons_of_mem _ hd)
    obtain ⟨y, s1, e1, f, w, l1, d1, d2, d3, n1, n2, n3, r⟩ := watch_step hq hm hF B ho x t dt hdt s e he
    obtain ⟨z, s1', -, -, rz⟩ := step_rel hq h ho x t dt hdt s' hs
    obtain ⟨y', s2', f', i', r'⟩ := step_rel hq h ho x' t dt hdt s' hs
    obtain ⟨v, v', p, e', p', g, g', k, l2, le⟩ := ih y y' (t + dt) s1 e1 s2' (he.trans l1) (fun d hd => hp d (List.mem_cons_of_mem _ hd)) i'
    have c1 := (nrm_le_iff hd.nonneg).2 ((rz.sub r').energy hq (hd.smul hdt))
    have c2 := r.sub_src rz
    rw [sub_self] at c2
    have small : ∀ a d, nrm B d ≤ e1 → nrm B (dt • (src a - d) - dt • src a) ≤ dt * e1 := by
      intro a d hn
      have : dt • (src a - d) - dt • src a = (-dt) • d := by module
      rw [this]
      exact scale hn (by rw [abs_neg, abs_of_nonneg hdt])
    have c3 := c2.forced hq (hd.smul hdt) (small _ _ n1) (small _ _ n2) (small _ _ n3)
    have c4 := nrm_add_le hd.symm hd.nonneg (y - z) (z - y')
    rw [sub_add_sub_cancel] at c4
    refine ⟨v, v', p, e', p', ?_, ?_, ?_, l1.trans l2, ?_⟩
    · simp only [run, f, Option.bind_eq_bind, Option.bind_some, g, List.sum_cons, add_assoc]
    · simp only [run, w, Option.bind_eq_bind, Option.bind_some, g', List.sum_cons, add_assoc]
    · simp only [run, f', Option.bind_eq_bind, Option.bind_some, k, List.sum_cons, add_assoc]
    · have : dt * e1 ≤ dt * e' := mul_le_mul_of_nonneg_left l2 hdt
      rw [List.sum_cons, mul_add]
      linarith

end Dgtd.Gmres
