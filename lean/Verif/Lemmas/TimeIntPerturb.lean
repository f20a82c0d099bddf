/-
Implicit steps with two different sources.
-/
import Verif.Lemmas.TimeIntDrivenStep

set_option linter.unusedSectionVars false

namespace Dgtd.TimeInt

open Implicit Spec

section
variable {V S : Type} [NormedAddCommGroup V] [NormedSpace ℝ V] [FiniteDimensional ℝ V]

theorem Rel.sub_src {q : Sdirk ℝ} {o : Ode} {Z : V →ₗ[ℝ] V} {c1 c2 c3 d1 d2 d3 x y x' y' : V} (h : Rel q o Z c1 c2 c3 x y)
    (h' : Rel q o Z d1 d2 d3 x' y') : Rel q o Z (c1 - d1) (c2 - d2) (c3 - d3) (x - x') (y - y') := by
  cases o with
  | rk4 => exact h
  | backwardEuler =>
    simp only [Rel, map_sub] at *
    linear_combination (norm := module) h - h'
  | trapezoidal =>
    simp only [Rel, map_sub] at *
    linear_combination (norm := module) h - h'
  | implicitMidpoint =>
    obtain ⟨m, e1, e⟩ := h
    obtain ⟨m', e1', e'⟩ := h'
    refine ⟨m - m', ?_, ?_⟩ <;> simp only [map_sub]
    · linear_combination (norm := module) e1 - e1'
    · linear_combination (norm := module) e - e'
  | sdirk33 =>
    obtain ⟨y1, y2, e1, e2, e⟩ := h
    obtain ⟨y1', y2', e1', e2', e'⟩ := h'
    refine ⟨y1 - y1', y2 - y2', ?_, ?_, ?_⟩ <;> simp only [map_sub]
    · linear_combination (norm := module) e1 - e1'
    · linear_combination (norm := module) e2 - e2'
    · linear_combination (norm := module) e - e'
  | sdirk23 =>
    obtain ⟨y1, y2, e1, e2, e⟩ := h
    obtain ⟨y1', y2', e1', e2', e'⟩ := h'
    refine ⟨y1 - y1', y2 - y2', ?_, ?_, ?_⟩ <;> simp only [map_sub]
    · linear_combination (norm := module) e1 - e1'
    · linear_combination (norm := module) e2 - e2'
    · linear_combination (norm := module) e - e'
  | sdirk34 =>
    obtain ⟨y1, y2, y3, e1, e2, e3, e⟩ := h
    obtain ⟨y1', y2', y3', e1', e2', e3', e'⟩ := h'
    refine ⟨y1 - y1', y2 - y2', y3 - y3', ?_, ?_, ?_, ?_⟩ <;> simp only [map_sub]
    · linear_combination (norm := module) e1 - e1'
    · linear_combination (norm := module) e2 - e2'
    · linear_combination (norm := module) e3 - e3'
    · linear_combination (norm := module) e - e'

/-- The slope of a stage. -/
theorem slope_le {B : V →ₗ[ℝ] V →ₗ[ℝ] ℝ} {Z : V →ₗ[ℝ] V} (h : Diss B Z) {a p e k : ℝ} (ha : 0 < a) {y w c : V}
    (ey : y = w + a • (Z y + c)) (hw : nrm B w ≤ p) (hc : nrm B c ≤ e) (hk : 2 * p + a * e ≤ k * a) : nrm B (Z y + c) ≤ k := by
  have h1 : nrm B y ≤ p + a * e := by
    refine (stage_le h ha.le (w := w + a • c) ?_).trans (tri h hw (scale hc (le_of_eq (abs_of_pos ha))))
    linear_combination (norm := module) ey
  have h2 : nrm B (a • (Z y + c)) ≤ p + a * e + p := by
    have e2 : a • (Z y + c) = y + (-1 : ℝ) • w := by linear_combination (norm := module) -ey
    rw [e2]
    refine (tri h h1 (scale hw (C := 1) (by norm_num))).trans (by rw [one_mul])
  rw [nrm_smul, abs_of_pos ha] at h2
  refine le_of_mul_le_mul_left ?_ ha
  linarith

/-- A step from rest. -/
theorem Rel.forced {q : Sdirk ℝ} (hq : Ideal33 q) {o : Ode} {B : V →ₗ[ℝ] V →ₗ[ℝ] ℝ} {Z : V →ₗ[ℝ] V} (hd : Diss B Z) {c1 c2 c3 y : V} {e : ℝ}
    (h1 : nrm B c1 ≤ e) (h2 : nrm B c2 ≤ e) (h3 : nrm B c3 ≤ e) (r : Rel q o Z c1 c2 c3 0 y) : nrm B y ≤ 10 * e := by
  have e0 : 0 ≤ e := (nrm_nonneg _ _).trans h1
  have z0 : nrm B (0 : V) ≤ 0 := by simp [nrm]
  cases o with
  | rk4 => exact r.elim
  | backwardEuler =>
    simp only [Rel] at r
    refine (stage_le hd zero_le_one (w := c1) ?_).trans (by linarith)
    linear_combination (norm := module) r
  | trapezoidal =>
    simp only [Rel, map_zero] at r
    refine (stage_le hd (by norm_num : (0 : ℝ) ≤ 1 / 2) (w := (1 / 2 : ℝ) • c1 + (1 / 2 : ℝ) • c2) ?_).trans
      ((tri hd (scale h1 (C := 1 / 2) (by norm_num [abs_of_pos])) (scale h2 (C := 1 / 2) (by norm_num [abs_of_pos]))).trans (by linarith))
    linear_combination (norm := module) r
  | implicitMidpoint =>
    obtain ⟨m, e1, r⟩ := r
    have k1 := slope_le hd (by norm_num : (0 : ℝ) < 1 / 2) e1 z0 h1 (k := e) (by linarith)
    rw [r, zero_add]
    linarith
  | sdirk33 =>
    obtain ⟨y1, y2, e1, e2, r⟩ := r
    obtain ⟨-, lo, hi, hb, hc⟩ := is33 hq
    have b1 : |q.b| ≤ 1.3 := by rw [abs_le]; constructor <;> nlinarith
    have b2 : |1 - q.a - q.b| ≤ 0.7 := by rw [abs_le]; constructor <;> nlinarith
    have b3 : |q.c - q.a| ≤ 0.3 := by rw [abs_le]; constructor <;> linarith
    have ha : 0 < q.a := by linarith
    have k1 := slope_le hd ha e1 z0 h1 (k := e) (by linarith)
    have k2 := slope_le hd ha e2 (tri hd z0 (scale k1 b3)) h2 (k := 3 * e) (by nlinarith)
    have w3 := tri hd (tri hd z0 (scale k1 b1)) (scale k2 b2)
    have k3 := stage_le hd ha.le (E := y) (w := 0 + q.b • (Z y1 + c1) + (1 - q.a - q.b) • (Z y2 + c2) + q.a • c3)
      (by linear_combination (norm := module) r)
    refine k3.trans ((tri hd w3 (scale h3 (C := 0.5) (by rw [abs_of_pos ha]; linarith))).trans ?_)
    linarith
  | sdirk23 =>
    obtain ⟨y1, y2, e1, e2, r⟩ := r
    obtain ⟨lo, hi⟩ := gamma23_bounds
    have ha : 0 < gamma23 := by linarith
    have b1 : |1 - 2 * gamma23| ≤ 0.42 := by rw [abs_le]; constructor <;> linarith
    have k1 := slope_le hd ha e1 z0 h1 (k := e) (by linarith)
    have k2 := slope_le hd ha e2 (tri hd z0 (scale k1 b1)) h2 (k := 4 * e) (by nlinarith)
    rw [r]
    refine (tri hd (tri hd z0 (scale k1 (C := 1 / 2) (by norm_num [abs_of_pos]))) (scale k2 (C := 1 / 2) (by norm_num [abs_of_pos]))).trans ?_
    linarith
  | sdirk34 =>
    obtain ⟨y1, y2, y3, e1, e2, e3, r⟩ := r
    have i34 := is34
    have lo := i34.lo
    have hi := i34.hi
    have ha : 0 < a34 := by linarith
    have b1 : |1 / 2 - a34| ≤ 0.6 := by rw [abs_le]; constructor <;> linarith
    have b2 : |2 * a34| ≤ 2.2 := by rw [abs_le]; constructor <;> linarith
    have b3 : |1 - 4 * a34| ≤ 3.3 := by rw [abs_le]; constructor <;> linarith
    have hb0 := i34.b_pos
    have hb1 := i34.b_lt
    have b4 : |b34| ≤ 1 / 4 := by rw [abs_le]; constructor <;> linarith
    have b5 : |1 - 2 * b34| ≤ 1 := by rw [abs_le]; constructor <;> linarith
    have k1 := slope_le hd ha e1 z0 h1 (k := e) (by linarith)
    have k2 := slope_le hd ha e2 (tri hd z0 (scale k1 b1)) h2 (k := 2.2 * e) (by nlinarith)
    have k3 := slope_le hd ha e3 (tri hd (tri hd z0 (scale k1 b2)) (scale k2 b3)) h3 (k := 20 * e) (by nlinarith)
    rw [r]
    refine (tri hd (tri hd (tri hd z0 (scale k1 b4)) (scale k2 b5)) (scale k3 b4)).trans ?_
    linarith

/-- Two steps of an implicit integrator, from different fields and with different sources. -/
theorem Rel.differ {q : Sdirk ℝ} (hq : Ideal33 q) {F : Tdo V S} {I : S → Prop} {A : V →ₗ[ℝ] V} {src src' : ℝ → V}
    (h : Solves F A src I) {B : V →ₗ[ℝ] V →ₗ[ℝ] ℝ} (hd : Diss B A) {o : Ode} (ho : o ≠ .rk4) {δ : ℝ} (hδ : ∀ t, nrm B (src t - src' t) ≤ δ)
    {t dt : ℝ} (hdt : 0 ≤ dt) {x y x' y' : V} {s : S} (hs : I s)
    (r : Rel q o (dt • A) (dt • src (stageTimes q o t dt).1) (dt • src (stageTimes q o t dt).2.1) (dt • src (stageTimes q o t dt).2.2) x y)
    (r' : Rel q o (dt • A) (dt • src' (stageTimes q o t dt).1) (dt • src' (stageTimes q o t dt).2.1) (dt • src' (stageTimes q o t dt).2.2) x' y') :
    nrm B (y - y') ≤ nrm B (x - x') + 10 * δ * dt := by
  obtain ⟨z, -, -, -, rz⟩ := step_rel hq h ho x' t dt hdt s hs
  have d1 := (nrm_le_iff hd.nonneg).2 ((r.sub rz).energy hq (hd.smul hdt))
  have k : ∀ a, nrm B (dt • src a - dt • src' a) ≤ dt * δ := fun a => by
    rw [← smul_sub]; exact scale (hδ a) (le_of_eq (abs_of_nonneg hdt))
  have d2 := rz.sub_src r'
  rw [sub_self] at d2
  have d3 := d2.forced hq (hd.smul hdt) (k _) (k _) (k _)
  have d4 := nrm_add_le hd.symm hd.nonneg (y - z) (z - y')
  rw [sub_add_sub_cancel] at d4
  linarith

/-- Runs of an implicit integrator with different sources. -/
theorem run_differ {q : Sdirk ℝ} (hq : Ideal33 q) {F F' : Tdo V S} {I : S → Prop} {A : V →ₗ[ℝ] V} {src src' : ℝ → V}
    (h : Solves F A src I) (h' : Solves F' A src' I) {B : V →ₗ[ℝ] V →ₗ[ℝ] ℝ} (hd : Diss B A) {o : Ode} (ho : o ≠ .rk4) {δ : ℝ}
    (hδ : ∀ t, nrm B (src t - src' t) ≤ δ) (dts : List ℝ) :
    ∀ (x x' : V) (t : ℝ) (s s' : S), (∀ dt ∈ dts, 0 ≤ dt) → I s → I s' →
      ∃ y y' r r', run q o F dts x t s = some (y, t + dts.sum, r) ∧ run q o F' dts x' t s' = some (y', t + dts.sum, r') ∧
        nrm B (y - y') ≤ nrm B (x - x') + 10 * δ * dts.sum := by
  induction dts with
  | nil => intro x x' t s s' _ _ _; exact ⟨x, x', s, s', by simp [run], by simp [run], by simp⟩
  | cons dt rest ih =>
    intro x x' t s s' hp hs hs'
    have hdt := hp dt List.mem_cons_self
    obtain ⟨y, s1, e, i, r⟩ := step_rel hq h ho x t dt hdt s hs
    obtain ⟨y', s1', e', i', r'⟩ := step_rel hq h' ho x' t dt hdt s' hs'
    obtain ⟨z, z', w, w', f, f', le⟩ := ih y y' (t + dt) s1 s1' (fun d hd => hp d (List.mem_cons_of_mem _ hd)) i i'
    refine ⟨z, z', w, w', ?_, ?_, ?_⟩
    · simp only [run, e, Option.bind_eq_bind, Option.bind_some, f, List.sum_cons, add_assoc]
    · simp only [run, e', Option.bind_eq_bind, Option.bind_some, f', List.sum_cons, add_assoc]
    · have := Rel.differ hq h hd ho hδ hdt hs r r'
      rw [List.sum_cons, mul_add]
      linarith

end

end Dgtd.TimeInt
