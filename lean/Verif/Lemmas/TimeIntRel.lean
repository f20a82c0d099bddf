/-
What a step of an implicit integrator computes, free of the sequence of solves.
-/
import Verif.Lemmas.TimeIntExact
import Verif.Spec.TimeInt
import Mathlib.Tactic.NormNum.RealSqrt

set_option linter.unusedSectionVars false

namespace Dgtd.TimeInt

open Dgtd.Implicit (Sdirk)
open Spec

/-! ### Coefficients -/

theorem gamma23_bounds : 0.29 ≤ gamma23 ∧ gamma23 ≤ 0.3 := by
  have h1 : (1.4 : ℝ) ≤ Real.sqrt 2 := Real.le_sqrt_of_sq_le (by norm_num)
  have h2 : Real.sqrt 2 ≤ 1.42 := Real.sqrt_le_iff.2 ⟨by norm_num, by norm_num⟩
  unfold gamma23
  constructor <;> linarith

theorem is34 : Is34 a34 b34 := by
  have h3 : 0 < Real.sqrt 3 := Real.sqrt_pos.2 (by norm_num)
  have hs : Real.sqrt 3 ^ 2 = 3 := Real.sq_sqrt (by norm_num)
  obtain ⟨t, ht⟩ : ∃ t, t = 2 * a34 - 1 := ⟨_, rfl⟩
  have ht' : t = 2 * Real.cos (Real.pi / 18) / Real.sqrt 3 := by
    rw [ht, a34]
    field_simp
    ring
  have hc : 0 < Real.cos (Real.pi / 18) := Real.cos_pos_of_mem_Ioo ⟨by linarith [Real.pi_pos], by linarith [Real.pi_pos]⟩
  have htpos : 0 < t := by rw [ht']; positivity
  have h6 := Real.cos_three_mul (Real.pi / 18)
  rw [show 3 * (Real.pi / 18) = Real.pi / 6 by ring, Real.cos_pi_div_six] at h6
  have hq : 3 * t ^ 3 - 3 * t - 1 = 0 := by
    have hcos : Real.cos (Real.pi / 18) = t * Real.sqrt 3 / 2 := by
      rw [ht']
      field_simp
    rw [hcos] at h6
    have h7 : Real.sqrt 3 * (3 * t ^ 3 - 3 * t - 1) = 0 := by
      linear_combination (-2 : ℝ) * h6 - Real.sqrt 3 * t ^ 3 * hs
    rcases mul_eq_zero.1 h7 with h | h
    · exact absurd h h3.ne'
    · exact h
  have l : 1.12 ≤ t := by
    by_contra hlt
    push Not at hlt
    nlinarith [mul_pos htpos htpos]
  have u : t ≤ 1.14 := by
    by_contra hlt
    push Not at hlt
    have h2 : 1.2996 < t * t := by nlinarith
    nlinarith
  have ha : a34 = (t + 1) / 2 := by rw [ht]; ring
  have hb : b34 = 1 / (6 * t * t) := by rw [b34, ht]
  refine ⟨?_, ?_, ?_, ?_, ?_, ?_⟩
  · rw [ha]
    linear_combination hq
  · rw [← ht, hb]
    field_simp
  · rw [ha]; linarith
  · rw [ha]; linarith
  · rw [hb]; positivity
  · rw [hb, div_le_iff₀ (by positivity)]
    nlinarith

theorem is33 {q : Sdirk ℝ} (h : Ideal33 q) : Is33 q.a q.b q.c := ⟨h.root, h.lo, h.hi, h.b_eq, h.c_eq⟩

/-! ### One step -/

section
variable {V S : Type} [AddCommGroup V] [Module ℝ V]

/-- One step from `x` to `y`; `Z` is the step times the operator and `c1 c2 c3` the step times the sources of the
stages. -/
def Rel (q : Sdirk ℝ) (o : Ode) (Z : V →ₗ[ℝ] V) (c1 c2 c3 x y : V) : Prop :=
  match o with
  | .rk4 => False
  | .backwardEuler => y = x + (Z y + c1)
  | .trapezoidal => y = x + (1 / 2 : ℝ) • (Z x + c1) + (1 / 2 : ℝ) • (Z y + c2)
  | .implicitMidpoint => ∃ m, m = x + (1 / 2 : ℝ) • (Z m + c1) ∧ y = x + (Z m + c1)
  | .sdirk33 => ∃ y1 y2, y1 = x + q.a • (Z y1 + c1) ∧ y2 = x + (q.c - q.a) • (Z y1 + c1) + q.a • (Z y2 + c2) ∧
      y = x + q.b • (Z y1 + c1) + (1 - q.a - q.b) • (Z y2 + c2) + q.a • (Z y + c3)
  | .sdirk23 => ∃ y1 y2, y1 = x + gamma23 • (Z y1 + c1) ∧
      y2 = x + (1 - 2 * gamma23) • (Z y1 + c1) + gamma23 • (Z y2 + c2) ∧
      y = x + (1 / 2 : ℝ) • (Z y1 + c1) + (1 / 2 : ℝ) • (Z y2 + c2)
  | .sdirk34 => ∃ y1 y2 y3, y1 = x + a34 • (Z y1 + c1) ∧
      y2 = x + (1 / 2 - a34) • (Z y1 + c1) + a34 • (Z y2 + c2) ∧
      y3 = x + (2 * a34) • (Z y1 + c1) + (1 - 4 * a34) • (Z y2 + c2) + a34 • (Z y3 + c3) ∧
      y = x + b34 • (Z y1 + c1) + (1 - 2 * b34) • (Z y2 + c2) + b34 • (Z y3 + c3)

theorem Rel.sub {q : Sdirk ℝ} {o : Ode} {Z : V →ₗ[ℝ] V} {c1 c2 c3 x y x' y' : V} (h : Rel q o Z c1 c2 c3 x y)
    (h' : Rel q o Z c1 c2 c3 x' y') : Rel q o Z 0 0 0 (x - x') (y - y') := by
  cases o with
  | rk4 => exact h
  | backwardEuler =>
    simp only [Rel, map_sub] at *
    linear_combination (norm := module) h - h'
  | trapezoidal =>
    simp only [Rel, map_sub] at *
    linear_combination (norm := module) h - h'
  | implicitMidpoint =>
    obtain ⟨m, e1, e⟩ := h
    obtain ⟨m', e1', e'⟩ := h'
    refine ⟨m - m', ?_, ?_⟩ <;> simp only [map_sub]
    · linear_combination (norm := module) e1 - e1'
    · linear_combination (norm := module) e - e'
  | sdirk33 =>
    obtain ⟨y1, y2, e1, e2, e⟩ := h
    obtain ⟨y1', y2', e1', e2', e'⟩ := h'
    refine ⟨y1 - y1', y2 - y2', ?_, ?_, ?_⟩ <;> simp only [map_sub]
    · linear_combination (norm := module) e1 - e1'
    · linear_combination (norm := module) e2 - e2'
    · linear_combination (norm := module) e - e'
  | sdirk23 =>
    obtain ⟨y1, y2, e1, e2, e⟩ := h
    obtain ⟨y1', y2', e1', e2', e'⟩ := h'
    refine ⟨y1 - y1', y2 - y2', ?_, ?_, ?_⟩ <;> simp only [map_sub]
    · linear_combination (norm := module) e1 - e1'
    · linear_combination (norm := module) e2 - e2'
    · linear_combination (norm := module) e - e'
  | sdirk34 =>
    obtain ⟨y1, y2, y3, e1, e2, e3, e⟩ := h
    obtain ⟨y1', y2', y3', e1', e2', e3', e'⟩ := h'
    refine ⟨y1 - y1', y2 - y2', y3 - y3', ?_, ?_, ?_, ?_⟩ <;> simp only [map_sub]
    · linear_combination (norm := module) e1 - e1'
    · linear_combination (norm := module) e2 - e2'
    · linear_combination (norm := module) e3 - e3'
    · linear_combination (norm := module) e - e'

/-- The trapezoidal rule is the midpoint rule for a linear operator. -/
theorem trapezoidal_mid {q : Sdirk ℝ} {Z : V →ₗ[ℝ] V} {x y : V} (h : Rel q .trapezoidal Z 0 0 0 x y) :
    ∃ m, m = x + (1 / 2 : ℝ) • Z m ∧ y = x + Z m := by
  simp only [Rel, add_zero] at h
  refine ⟨(1 / 2 : ℝ) • (x + y), ?_, ?_⟩ <;> simp only [map_smul, map_add]
  · linear_combination (norm := module) (1 / 2 : ℝ) • h
  · linear_combination (norm := module) h

/-- Energy of one step. -/
theorem Rel.energy {q : Sdirk ℝ} (hq : Ideal33 q) {o : Ode} {B : V →ₗ[ℝ] V →ₗ[ℝ] ℝ} {Z : V →ₗ[ℝ] V} (hd : Diss B Z)
    {x y : V} (h : Rel q o Z 0 0 0 x y) : B y y ≤ B x x := by
  cases o with
  | rk4 => exact h.elim
  | backwardEuler =>
    simp only [Rel, add_zero] at h
    exact backward_energy hd h
  | trapezoidal =>
    obtain ⟨m, e1, e⟩ := trapezoidal_mid h
    rw [midpoint_energy hd.symm e1 e]
    linarith [hd.diss m]
  | implicitMidpoint =>
    obtain ⟨m, e1, e⟩ := h
    simp only [add_zero] at e1 e
    rw [midpoint_energy hd.symm e1 e]
    linarith [hd.diss m]
  | sdirk33 =>
    obtain ⟨y1, y2, e1, e2, e⟩ := h
    simp only [add_zero] at e1 e2 e
    exact sdirk33_energy (is33 hq) hd e1 e2 e
  | sdirk23 =>
    obtain ⟨y1, y2, e1, e2, e⟩ := h
    simp only [add_zero] at e1 e2 e
    exact sdirk23_energy hd (by linarith [gamma23_bounds.1]) e1 e2 e
  | sdirk34 =>
    obtain ⟨y1, y2, y3, e1, e2, e3, e⟩ := h
    simp only [add_zero] at e1 e2 e3 e
    exact sdirk34_energy hd is34 e1 e2 e3 e

/-- Times at which the sources of a step are taken. -/
noncomputable def stageTimes (q : Sdirk ℝ) (o : Ode) (t dt : ℝ) : ℝ × ℝ × ℝ :=
  match o with
  | .rk4 => (t, t, t)
  | .backwardEuler => (t + dt, t, t)
  | .trapezoidal => (t, t + dt, t)
  | .implicitMidpoint => (t + dt / 2, t, t)
  | .sdirk33 => (t + q.a * dt, t + q.c * dt, t + dt)
  | .sdirk23 => (t + gamma23 * dt, t + (1 - gamma23) * dt, t)
  | .sdirk34 => (t + a34 * dt, t + 1 / 2 * dt, t + (1 - a34) * dt)

/-- An operator that solves its implicit equation for every non-negative step, whatever its members hold. -/
structure Solves (F : Tdo V S) (A : V →ₗ[ℝ] V) (src : ℝ → V) (I : S → Prop) : Prop where
  mult : ∀ t x, F.mult t x = A x + src t
  solve : ∀ t g x s, 0 ≤ g → I s → ∃ k s', F.implicitSolve t g x s = some (k, s') ∧ I s' ∧ k = A (x + g • k) + src t

theorem stage_eq {A : V →ₗ[ℝ] V} {x k r : V} {g dt : ℝ} (e : k = A (x + (g * dt) • k) + r) :
    (x + (g * dt) • k) = x + g • ((dt • A) (x + (g * dt) • k) + dt • r) := by
  have : dt • k = dt • A (x + (g * dt) • k) + dt • r := by
    rw [← smul_add]
    exact congrArg (dt • ·) e
  rw [LinearMap.smul_apply, ← this]
  module

/-- A step with an operator that solves completes, and is related as above. -/
theorem step_rel {q : Sdirk ℝ} (hq : Ideal33 q) {F : Tdo V S} {A : V →ₗ[ℝ] V} {src : ℝ → V} {I : S → Prop}
    (h : Solves F A src I) {o : Ode} (ho : o ≠ .rk4) (x : V) (t dt : ℝ) (hdt : 0 ≤ dt) (s : S) (hs : I s) :
    ∃ y s', step q o F x t dt s = some (y, t + dt, s') ∧ I s' ∧
      Rel q o (dt • A) (dt • src (stageTimes q o t dt).1) (dt • src (stageTimes q o t dt).2.1)
        (dt • src (stageTimes q o t dt).2.2) x y := by
  have hqa : 0 ≤ q.a * dt := mul_nonneg (by linarith [hq.lo]) hdt
  have hga : 0 ≤ gamma23 * dt := mul_nonneg (by linarith [gamma23_bounds.1]) hdt
  have h4a : 0 ≤ a34 * dt := mul_nonneg (by linarith [is34.lo]) hdt
  have slope : ∀ {x k r : V} {g : ℝ}, k = A (x + g • k) + r → dt • k = (dt • A) (x + g • k) + dt • r := by
    intro x k r g e
    rw [LinearMap.smul_apply, ← smul_add]
    exact congrArg (dt • ·) e
  cases o with
  | rk4 => exact absurd rfl ho
  | backwardEuler =>
    obtain ⟨k, s1, e1, i1, k1⟩ := h.solve (t + dt) dt x s hdt hs
    refine ⟨x + dt • k, s1, ?_, i1, ?_⟩
    · simp only [step, backwardEuler, e1, Option.bind_eq_bind, Option.bind_some]
    · simp only [Rel, stageTimes]
      rw [← slope k1]
  | trapezoidal =>
    obtain ⟨k, s1, e1, i1, k1⟩ := h.solve (t + dt) (dt / 2) (x + (dt / 2) • (A x + src t)) s (by linarith) hs
    refine ⟨x + (dt / 2) • (A x + src t) + (dt / 2) • k, s1, ?_, i1, ?_⟩
    · simp only [step, trapezoidal, h.mult, e1, Option.bind_eq_bind, Option.bind_some]
    · simp only [Rel, stageTimes]
      rw [← slope k1, LinearMap.smul_apply]
      module
  | implicitMidpoint =>
    obtain ⟨k, s1, e1, i1, k1⟩ := h.solve (t + dt / 2) (dt / 2) x s (by linarith) hs
    refine ⟨x + dt • k, s1, ?_, i1, x + (dt / 2) • k, ?_, ?_⟩
    · simp only [step, implicitMidpoint, e1, Option.bind_eq_bind, Option.bind_some]
    · simp only [stageTimes]
      rw [← slope k1]
      module
    · simp only [stageTimes]
      rw [← slope k1]
  | sdirk33 =>
    obtain ⟨k1, s1, e1, i1, j1⟩ := h.solve (t + q.a * dt) (q.a * dt) x s hqa hs
    obtain ⟨k2, s2, e2, i2, j2⟩ := h.solve (t + q.c * dt) (q.a * dt) (x + ((q.c - q.a) * dt) • k1) s1 hqa i1
    obtain ⟨k3, s3, e3, i3, j3⟩ := h.solve (t + dt) (q.a * dt)
      (x + (q.b * dt) • k1 + ((1 - q.a - q.b) * dt) • k2) s2 hqa i2
    refine ⟨x + (q.b * dt) • k1 + ((1 - q.a - q.b) * dt) • k2 + (q.a * dt) • k3, s3, ?_, i3,
      x + (q.a * dt) • k1, x + ((q.c - q.a) * dt) • k1 + (q.a * dt) • k2, ?_, ?_, ?_⟩
    · simp only [step, sdirk33, e1, e2, e3, Option.bind_eq_bind, Option.bind_some]
    all_goals
      simp only [stageTimes]
      try rw [← slope j3]
      try rw [← slope j2]
      try rw [← slope j1]
      module
  | sdirk23 =>
    obtain ⟨k1, s1, e1, i1, j1⟩ := h.solve (t + gamma23 * dt) (gamma23 * dt) x s hga hs
    obtain ⟨k2, s2, e2, i2, j2⟩ := h.solve (t + (1 - gamma23) * dt) (gamma23 * dt)
      (x + ((1 - 2 * gamma23) * dt) • k1) s1 hga i1
    refine ⟨x + (dt / 2) • k1 + (dt / 2) • k2, s2, ?_, i2,
      x + (gamma23 * dt) • k1, x + ((1 - 2 * gamma23) * dt) • k1 + (gamma23 * dt) • k2, ?_, ?_, ?_⟩
    · simp only [step, sdirk23, e1, e2, Option.bind_eq_bind, Option.bind_some]
    all_goals
      simp only [stageTimes]
      try rw [← slope j2]
      try rw [← slope j1]
      module
  | sdirk34 =>
    obtain ⟨k1, s1, e1, i1, j1⟩ := h.solve (t + a34 * dt) (a34 * dt) x s h4a hs
    obtain ⟨k2, s2, e2, i2, j2⟩ := h.solve (t + 1 / 2 * dt) (a34 * dt) (x + ((1 / 2 - a34) * dt) • k1) s1 h4a i1
    obtain ⟨k3, s3, e3, i3, j3⟩ := h.solve (t + (1 - a34) * dt) (a34 * dt)
      (x + ((2 * a34) * dt) • k1 + ((1 - 4 * a34) * dt) • k2) s2 h4a i2
    refine ⟨x + (b34 * dt) • k1 + ((1 - 2 * b34) * dt) • k2 + (b34 * dt) • k3, s3, ?_, i3,
      x + (a34 * dt) • k1, x + ((1 / 2 - a34) * dt) • k1 + (a34 * dt) • k2,
      x + ((2 * a34) * dt) • k1 + ((1 - 4 * a34) * dt) • k2 + (a34 * dt) • k3, ?_, ?_, ?_, ?_⟩
    · simp only [step, sdirk34, e1, e2, e3, Option.bind_eq_bind, Option.bind_some]
    all_goals
      simp only [stageTimes]
      try rw [← slope j3]
      try rw [← slope j2]
      try rw [← slope j1]
      module

/-- Any sequence of steps of an implicit integrator brings two runs no further apart. -/
theorem run_contracts {q : Sdirk ℝ} (hq : Ideal33 q) {F : Tdo V S} {A : V →ₗ[ℝ] V} {src : ℝ → V} {I : S → Prop}
    (h : Solves F A src I) {B : V →ₗ[ℝ] V →ₗ[ℝ] ℝ} (hd : Diss B A) {o : Ode} (ho : o ≠ .rk4) (dts : List ℝ) :
    ∀ (x x' : V) (t : ℝ) (s s' : S), (∀ dt ∈ dts, 0 ≤ dt) → I s → I s' →
      ∃ y y' r r', run q o F dts x t s = some (y, t + dts.sum, r) ∧ run q o F dts x' t s' = some (y', t + dts.sum, r') ∧
        I r ∧ I r' ∧ B (y - y') (y - y') ≤ B (x - x') (x - x') := by
  induction dts with
  | nil =>
    intro x x' t s s' _ hs hs'
    exact ⟨x, x', s, s', by simp [run], by simp [run], hs, hs', le_refl _⟩
  | cons dt rest ih =>
    intro x x' t s s' hp hs hs'
    have hdt := hp dt List.mem_cons_self
    obtain ⟨y, s1, e, i, r⟩ := step_rel hq h ho x t dt hdt s hs
    obtain ⟨y', s1', e', i', r'⟩ := step_rel hq h ho x' t dt hdt s' hs'
    obtain ⟨z, z', r1, r1', f, f', j, j', le⟩ :=
      ih y y' (t + dt) s1 s1' (fun d hd => hp d (List.mem_cons_of_mem _ hd)) i i'
    refine ⟨z, z', r1, r1', ?_, ?_, j, j', le.trans ((r.sub r').energy hq (hd.smul hdt))⟩
    · simp only [run, e, Option.bind_eq_bind, Option.bind_some, f, List.sum_cons, add_assoc]
    · simp only [run, e', Option.bind_eq_bind, Option.bind_some, f', List.sum_cons, add_assoc]

end

/-! ### Accuracy -/

section
variable {V S : Type} [NormedAddCommGroup V] [NormedSpace ℝ V] [FiniteDimensional ℝ V]

/-- One step without sources against the Taylor polynomial. -/
theorem Rel.taylor {q : Sdirk ℝ} (hq : Ideal33 q) {o : Ode} {B : V →ₗ[ℝ] V →ₗ[ℝ] ℝ} {A : V →ₗ[ℝ] V} (hd : Diss B A)
    {dt : ℝ} (hdt : 0 ≤ dt) {x y : V} (h : Rel q o (dt • A) 0 0 0 x y) :
    nrm B (y - TimeInt.taylor A (order o + 1) dt x) ≤ dt ^ (order o + 1) * nrm B ((A ^ (order o + 1)) x) := by
  have hz := hd.smul hdt
  have p2 : ∀ x, (dt • A) ((dt • A) x) = (dt ^ 2) • (A ^ 2) x := by
    intro x
    simp only [LinearMap.smul_apply, map_smul, smul_smul, pow_succ, pow_zero, Module.End.mul_apply,
      one_mul]
  have p3 : ∀ x, (dt • A) ((dt • A) ((dt • A) x)) = (dt ^ 3) • (A ^ 3) x := by
    intro x
    simp only [LinearMap.smul_apply, map_smul, smul_smul, pow_succ, pow_zero, Module.End.mul_apply,
      one_mul]
  have p4 : ∀ x, (dt • A) ((dt • A) ((dt • A) ((dt • A) x))) = (dt ^ 4) • (A ^ 4) x := by
    intro x
    simp only [LinearMap.smul_apply, map_smul, smul_smul, pow_succ, pow_zero, Module.End.mul_apply,
      one_mul]
  have p5 : ∀ x, (dt • A) ((dt • A) ((dt • A) ((dt • A) ((dt • A) x)))) = (dt ^ 5) • (A ^ 5) x := by
    intro x
    simp only [LinearMap.smul_apply, map_smul, smul_smul, pow_succ, pow_zero, Module.End.mul_apply,
      one_mul]
  have sc : ∀ (n : Nat) (v : V), nrm B ((dt ^ n) • v) = dt ^ n * nrm B v := by
    intro n v
    rw [nrm_smul, abs_of_nonneg (pow_nonneg hdt n)]
  have mid : ∀ {m : V}, m = x + (1 / 2 : ℝ) • (dt • A) m → y = x + (dt • A) m →
      nrm B (y - TimeInt.taylor A 3 dt x) ≤ dt ^ 3 * nrm B ((A ^ 3) x) := by
    intro m e1 e
    have := midpoint_taylor hz e1 e
    rw [p3, p2, sc] at this
    have n := mul_nonneg (pow_nonneg hdt 3) (nrm_nonneg B ((A ^ 3) x))
    refine le_trans (le_of_eq ?_) (this.trans (by linarith))
    congr 1
    simp [TimeInt.taylor, Finset.sum_range_succ, Nat.factorial]
    module
  cases o with
  | rk4 => exact h.elim
  | backwardEuler =>
    simp only [Rel, add_zero] at h
    have := backward_taylor hz h
    rw [p2, sc] at this
    refine le_trans (le_of_eq ?_) this
    congr 1
    simp [TimeInt.taylor, order, Finset.sum_range_succ, Nat.factorial]
  | trapezoidal =>
    obtain ⟨m, e1, e⟩ := trapezoidal_mid h
    exact mid e1 e
  | implicitMidpoint =>
    obtain ⟨m, e1, e⟩ := h
    simp only [add_zero] at e1 e
    exact mid e1 e
  | sdirk33 =>
    obtain ⟨y1, y2, e1, e2, e⟩ := h
    simp only [add_zero] at e1 e2 e
    have := sdirk33_taylor (is33 hq) hz e1 e2 e
    rw [p4, p3, p2, sc, one_mul] at this
    refine le_trans (le_of_eq ?_) this
    congr 1
    simp [TimeInt.taylor, order, Finset.sum_range_succ, Nat.factorial]
    module
  | sdirk23 =>
    obtain ⟨y1, y2, e1, e2, e⟩ := h
    simp only [add_zero] at e1 e2 e
    have := sdirk23_taylor hz gamma23_bounds.1 gamma23_bounds.2 e1 e2 e
    rw [p3, p2, sc, one_mul] at this
    refine le_trans (le_of_eq ?_) this
    congr 1
    simp [TimeInt.taylor, order, Finset.sum_range_succ, Nat.factorial]
    module
  | sdirk34 =>
    obtain ⟨y1, y2, y3, e1, e2, e3, e⟩ := h
    simp only [add_zero] at e1 e2 e3 e
    have := sdirk34_taylor hz is34 e1 e2 e3 e
    rw [p5, p4, p3, p2, sc, one_mul] at this
    refine le_trans (le_of_eq ?_) this
    congr 1
    simp [TimeInt.taylor, order, Finset.sum_range_succ, Nat.factorial]
    module

/-- One step from the exact solution. -/
theorem Rel.defect {q : Sdirk ℝ} (hq : Ideal33 q) {o : Ode} {B : V →ₗ[ℝ] V →ₗ[ℝ] ℝ} {A : V →ₗ[ℝ] V} (hd : Diss B A)
    {dt : ℝ} (hdt : 0 ≤ dt) {u : ℝ → V} (hu : Exact A u) {t : ℝ} {y : V} (h : Rel q o (dt • A) 0 0 0 (u t) y) :
    nrm B (y - u (t + dt)) ≤ 2 * dt ^ (order o + 1) * nrm B ((A ^ (order o + 1)) (u t)) := by
  have h1 := h.taylor hq hd hdt
  have h2 := exact_taylor hd (order o + 1) hu t dt hdt
  have h3 := nrm_add_le hd.symm hd.nonneg (y - TimeInt.taylor A (order o + 1) dt (u t))
    ((-1 : ℝ) • (u (t + dt) - TimeInt.taylor A (order o + 1) dt (u t)))
  rw [nrm_smul] at h3
  have e : y - TimeInt.taylor A (order o + 1) dt (u t) +
      (-1 : ℝ) • (u (t + dt) - TimeInt.taylor A (order o + 1) dt (u t)) = y - u (t + dt) := by module
  rw [e] at h3
  simp only [abs_neg, abs_one, one_mul] at h3
  have hf : (1 : ℝ) ≤ ((order o + 1).factorial : ℝ) := by exact_mod_cast Nat.succ_le_of_lt (Nat.factorial_pos _)
  have hle : dt ^ (order o + 1) / ((order o + 1).factorial : ℝ) ≤ dt ^ (order o + 1) :=
    div_le_self (pow_nonneg hdt _) hf
  have := mul_le_mul_of_nonneg_right hle (nrm_nonneg B ((A ^ (order o + 1)) (u t)))
  linarith

/-- A run of an implicit integrator without sources against the exact solution. -/
theorem run_converges {q : Sdirk ℝ} (hq : Ideal33 q) {F : Tdo V S} {A : V →ₗ[ℝ] V} {I : S → Prop}
    (h : Solves F A (fun _ => 0) I) {B : V →ₗ[ℝ] V →ₗ[ℝ] ℝ} (hd : Diss B A) {o : Ode} (ho : o ≠ .rk4) {u : ℝ → V}
    (hu : Exact A u) (H K : ℝ) (dts : List ℝ) :
    ∀ (x : V) (t : ℝ) (s : S), (∀ dt ∈ dts, 0 ≤ dt ∧ dt ≤ H) → nrm B ((A ^ (order o + 1)) (u t)) ≤ K → I s →
      ∃ y r, run q o F dts x t s = some (y, t + dts.sum, r) ∧ I r ∧
        nrm B (y - u (t + dts.sum)) ≤ nrm B (x - u t) + 2 * dts.sum * H ^ order o * K := by
  induction dts with
  | nil =>
    intro x t s _ _ hs
    exact ⟨x, s, by simp [run], hs, by simp⟩
  | cons dt rest ih =>
    intro x t s hp hK hs
    obtain ⟨hdt, hdH⟩ := hp dt List.mem_cons_self
    obtain ⟨y, s1, e, i, r⟩ := step_rel hq h ho x t dt hdt s hs
    obtain ⟨y', s1', -, -, r'⟩ := step_rel hq h ho (u t) t dt hdt s hs
    simp only [smul_zero] at r r'
    have hK' : nrm B ((A ^ (order o + 1)) (u (t + dt))) ≤ K :=
      (exact_pow_decays hd (order o + 1) hu (by linarith : t ≤ t + dt)).trans hK
    obtain ⟨z, r1, f, j, le⟩ := ih y (t + dt) s1 (fun d hd => hp d (List.mem_cons_of_mem _ hd)) hK' i
    refine ⟨z, r1, ?_, j, ?_⟩
    · simp only [run, e, Option.bind_eq_bind, Option.bind_some, f, List.sum_cons, add_assoc]
    · have d1 := r'.defect hq hd hdt hu
      have d2 := (nrm_le_iff hd.nonneg).2 ((r.sub r').energy hq (hd.smul hdt))
      have d3 := nrm_add_le hd.symm hd.nonneg (y - y') (y' - u (t + dt))
      rw [sub_add_sub_cancel] at d3
      have d4 : dt ^ (order o + 1) * nrm B ((A ^ (order o + 1)) (u t)) ≤ dt * H ^ order o * K := by
        rw [pow_succ, mul_comm (dt ^ order o)]
        have := pow_le_pow_left₀ hdt hdH (order o)
        have h1 : dt * dt ^ order o ≤ dt * H ^ order o := mul_le_mul_of_nonneg_left this hdt
        exact mul_le_mul h1 hK (nrm_nonneg _ _) (mul_nonneg hdt (pow_nonneg (hdt.trans hdH) _))
      rw [List.sum_cons, ← add_assoc]
      nlinarith
end

end Dgtd.TimeInt
