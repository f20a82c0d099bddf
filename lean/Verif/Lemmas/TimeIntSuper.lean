/-
Runs with combined sources; solutions with a residual.
-/
import Verif.Lemmas.TimeIntMap
import Verif.Lemmas.TimeIntSmooth
import Mathlib.Analysis.SpecialFunctions.Sqrt
import Mathlib.Analysis.Calculus.MeanValue

set_option linter.unusedSectionVars false

namespace Dgtd.TimeInt

open Dgtd.Implicit (Sdirk)
open Spec

section
variable {V S : Type} [AddCommGroup V] [Module ℝ V]

theorem Rel.comb {q : Sdirk ℝ} {o : Ode} {Z : V →ₗ[ℝ] V} {c1 c2 c3 d1 d2 d3 x y x' y' : V} (a b : ℝ) (h : Rel q o Z c1 c2 c3 x y)
    (h' : Rel q o Z d1 d2 d3 x' y') :
    Rel q o Z (a • c1 + b • d1) (a • c2 + b • d2) (a • c3 + b • d3) (a • x + b • x') (a • y + b • y') := by
  cases o with
  | rk4 => exact h
  | backwardEuler =>
    simp only [Rel, map_add, map_smul] at *
    linear_combination (norm := module) a • h + b • h'
  | trapezoidal =>
    simp only [Rel, map_add, map_smul] at *
    linear_combination (norm := module) a • h + b • h'
  | implicitMidpoint =>
    obtain ⟨m, e1, e⟩ := h
    obtain ⟨m', e1', e'⟩ := h'
    refine ⟨a • m + b • m', ?_, ?_⟩ <;> simp only [map_add, map_smul]
    · linear_combination (norm := module) a • e1 + b • e1'
    · linear_combination (norm := module) a • e + b • e'
  | sdirk33 =>
    obtain ⟨y1, y2, e1, e2, e⟩ := h
    obtain ⟨y1', y2', e1', e2', e'⟩ := h'
    refine ⟨a • y1 + b • y1', a • y2 + b • y2', ?_, ?_, ?_⟩ <;> simp only [map_add, map_smul]
    · linear_combination (norm := module) a • e1 + b • e1'
    · linear_combination (norm := module) a • e2 + b • e2'
    · linear_combination (norm := module) a • e + b • e'
  | sdirk23 =>
    obtain ⟨y1, y2, e1, e2, e⟩ := h
    obtain ⟨y1', y2', e1', e2', e'⟩ := h'
    refine ⟨a • y1 + b • y1', a • y2 + b • y2', ?_, ?_, ?_⟩ <;> simp only [map_add, map_smul]
    · linear_combination (norm := module) a • e1 + b • e1'
    · linear_combination (norm := module) a • e2 + b • e2'
    · linear_combination (norm := module) a • e + b • e'
  | sdirk34 =>
    obtain ⟨y1, y2, y3, e1, e2, e3, e⟩ := h
    obtain ⟨y1', y2', y3', e1', e2', e3', e'⟩ := h'
    refine ⟨a • y1 + b • y1', a • y2 + b • y2', a • y3 + b • y3', ?_, ?_, ?_, ?_⟩ <;> simp only [map_add, map_smul]
    · linear_combination (norm := module) a • e1 + b • e1'
    · linear_combination (norm := module) a • e2 + b • e2'
    · linear_combination (norm := module) a • e3 + b • e3'
    · linear_combination (norm := module) a • e + b • e'

theorem rk4_comb {S' S'' : Type} {F : Tdo V S} {F' : Tdo V S'} {F'' : Tdo V S''} {A : V →ₗ[ℝ] V} {src src' src'' : ℝ → V}
    (h : ∀ t x, F.mult t x = A x + src t)
    (h' : ∀ t x, F'.mult t x = A x + src' t) (h'' : ∀ t x, F''.mult t x = A x + src'' t) {a b : ℝ}
    (hs : ∀ t, src'' t = a • src t + b • src' t) (x x' : V) (t dt : ℝ) :
    (rk4 F'' (a • x + b • x') t dt).1 = a • (rk4 F x t dt).1 + b • (rk4 F' x' t dt).1 := by
  simp only [rk4, h, h', h'', hs, map_add, map_smul]
  module

/-- Explicit runs with combined sources. -/
theorem run_rk4_comb {S' S'' : Type} (q : Sdirk ℝ) {F : Tdo V S} {F' : Tdo V S'} {F'' : Tdo V S''} {A : V →ₗ[ℝ] V}
    {src src' src'' : ℝ → V} (h : ∀ t x, F.mult t x = A x + src t)
    (h' : ∀ t x, F'.mult t x = A x + src' t) (h'' : ∀ t x, F''.mult t x = A x + src'' t) {a b : ℝ}
    (hs : ∀ t, src'' t = a • src t + b • src' t) (dts : List ℝ) : ∀ (x x' : V) (t : ℝ) (s : S) (s' : S') (s'' : S''),
    ∃ y y', run q .rk4 F dts x t s = some (y, t + dts.sum, s) ∧ run q .rk4 F' dts x' t s' = some (y', t + dts.sum, s') ∧
      run q .rk4 F'' dts (a • x + b • x') t s'' = some (a • y + b • y', t + dts.sum, s'') := by
  induction dts with
  | nil => exact fun x x' t s s' s'' => ⟨x, x', by simp [run], by simp [run], by simp [run]⟩
  | cons dt rest ih =>
    intro x x' t s s' s''
    obtain ⟨y, y', e, e', e''⟩ := ih (rk4 F x t dt).1 (rk4 F' x' t dt).1 (t + dt) s s' s''
    rw [← rk4_comb h h' h'' hs] at e''
    refine ⟨y, y', ?_, ?_, ?_⟩ <;> rw [List.sum_cons, ← add_assoc]
    · exact e
    · exact e'
    · exact e''

/-- Runs of any integrator with combined sources. -/
theorem run_comb {q : Sdirk ℝ} (hq : Ideal33 q) {F F' F'' : Tdo V S} {A : V →ₗ[ℝ] V} {src src' src'' : ℝ → V} {I : S → Prop}
    (h : Solves F A src I) (h' : Solves F' A src' I) (h'' : Solves F'' A src'' I) {a b : ℝ}
    (hs : ∀ t, src'' t = a • src t + b • src' t) {B : V →ₗ[ℝ] V →ₗ[ℝ] ℝ} (hd : Diss B A) (hB : ∀ u, u ≠ 0 → 0 < B u u) (o : Ode)
    (dts : List ℝ) : ∀ (x x' : V) (t : ℝ) (s s' s'' : S), (∀ dt ∈ dts, 0 ≤ dt) → I s → I s' → I s'' →
      ∃ y y' c c' c'', run q o F dts x t s = some (y, t + dts.sum, c) ∧ run q o F' dts x' t s' = some (y', t + dts.sum, c') ∧
        run q o F'' dts (a • x + b • x') t s'' = some (a • y + b • y', t + dts.sum, c'') := by
  induction dts with
  | nil => exact fun x x' t s s' s'' _ _ _ _ => ⟨x, x', s, s', s'', by simp [run], by simp [run], by simp [run]⟩
  | cons dt rest ih =>
    intro x x' t s s' s'' hp hi hi' hi''
    have hdt := hp dt List.mem_cons_self
    have one : ∃ y y' c c' c'', step q o F x t dt s = some (y, t + dt, c) ∧ step q o F' x' t dt s' = some (y', t + dt, c') ∧
        step q o F'' (a • x + b • x') t dt s'' = some (a • y + b • y', t + dt, c'') ∧ I c ∧ I c' ∧ I c'' := by
      by_cases ho : o = .rk4
      · subst ho
        refine ⟨_, _, s, s', s'', rfl, rfl, ?_, hi, hi', hi''⟩
        rw [← rk4_comb h.mult h'.mult h''.mult hs]
        rfl
      · obtain ⟨y, c, e, i, k⟩ := step_rel hq h ho x t dt hdt s hi
        obtain ⟨y', c', e', i', k'⟩ := step_rel hq h' ho x' t dt hdt s' hi'
        obtain ⟨y'', c'', e'', i'', k''⟩ := step_rel hq h'' ho (a • x + b • x') t dt hdt s'' hi''
        have k2 := Rel.comb a b k k'
        have r : ∀ t, a • dt • src t + b • dt • src' t = dt • src'' t := by
          intro t
          rw [hs]
          module
        simp only [r] at k2
        obtain rfl : y'' = a • y + b • y' := k''.unique hq (hd.smul hdt) hB k2
        exact ⟨y, y', c, c', c'', e, e', e'', i, i', i''⟩
    obtain ⟨y, y', c, c', c'', e, e', e'', i, i', i''⟩ := one
    obtain ⟨z, z', v, v', v'', f, f', f''⟩ := ih y y' (t + dt) c c' c'' (fun d hd => hp d (List.mem_cons_of_mem _ hd)) i i' i''
    refine ⟨z, z', v, v', v'', ?_, ?_, ?_⟩
    · simp only [run, e, Option.bind_eq_bind, Option.bind_some, f, List.sum_cons, add_assoc]
    · simp only [run, e', Option.bind_eq_bind, Option.bind_some, f', List.sum_cons, add_assoc]
    · simp only [run, e'', Option.bind_eq_bind, Option.bind_some, f'', List.sum_cons, add_assoc]

end

section
variable {V : Type} [NormedAddCommGroup V] [NormedSpace ℝ V] [FiniteDimensional ℝ V]

/-- A residual adds at most its size times the time. -/
theorem residual_le {B : V →ₗ[ℝ] V →ₗ[ℝ] ℝ} {A : V →ₗ[ℝ] V} (hd : Diss B A) {e r : ℝ → V} {δ t T : ℝ} (hT : t ≤ T)
    (he : ∀ s, t ≤ s → s ≤ T → HasDerivAt e (A (e s) + r s) s) (hr : ∀ s, t ≤ s → s ≤ T → nrm B (r s) ≤ δ) :
    nrm B (e T) ≤ nrm B (e t) + (T - t) * δ := by
  have hδ : 0 ≤ δ := (nrm_nonneg B _).trans (hr t le_rfl hT)
  apply le_of_forall_pos_le_add
  intro ε hε
  have hf : ∀ s, t ≤ s → s ≤ T → HasDerivAt (fun s => B (e s) (e s)) (2 * B (e s) (A (e s) + r s)) s := by
    intro s h1 h2
    have h3 : HasDerivAt (fun s => B.toContinuousBilinearMap (e s)) (B.toContinuousBilinearMap (A (e s) + r s)) s :=
      (B.toContinuousBilinearMap).hasFDerivAt.comp_hasDerivAt s (he s h1 h2)
    refine (h3.clm_apply (he s h1 h2)).congr_deriv ?_
    show B (A (e s) + r s) (e s) + B (e s) (A (e s) + r s) = _
    rw [hd.symm]
    ring
  have pos : ∀ s, 0 < B (e s) (e s) + ε ^ 2 := fun s => by have := hd.nonneg (e s); positivity
  have hg : ∀ s, t ≤ s → s ≤ T → HasDerivAt (fun s => Real.sqrt (B (e s) (e s) + ε ^ 2))
      (2 * B (e s) (A (e s) + r s) / (2 * Real.sqrt (B (e s) (e s) + ε ^ 2))) s := fun s h1 h2 =>
    HasDerivAt.sqrt ((hf s h1 h2).add_const (ε ^ 2)) (pos s).ne'
  have hle : ∀ s, t ≤ s → s ≤ T → 2 * B (e s) (A (e s) + r s) / (2 * Real.sqrt (B (e s) (e s) + ε ^ 2)) ≤ δ := by
    intro s h1 h2
    rw [div_le_iff₀ (by have := Real.sqrt_pos.2 (pos s); positivity), map_add]
    have c1 := hd.diss (e s)
    have c2 : B (e s) (r s) ≤ nrm B (e s) * nrm B (r s) := form_le hd.symm hd.nonneg _ _
    have c3 : nrm B (e s) ≤ Real.sqrt (B (e s) (e s) + ε ^ 2) := Real.sqrt_le_sqrt (by nlinarith [sq_nonneg ε])
    have c4 := mul_le_mul c3 (hr s h1 h2) (nrm_nonneg B _) (Real.sqrt_nonneg _)
    nlinarith
  have key := Convex.image_sub_le_mul_sub_of_deriv_le (convex_Icc t T)
    (f := fun s => Real.sqrt (B (e s) (e s) + ε ^ 2))
    (fun s hs => (hg s hs.1 hs.2).continuousAt.continuousWithinAt)
    (fun s hs => by
      rw [interior_Icc] at hs
      exact (hg s hs.1.le hs.2.le).differentiableAt.differentiableWithinAt)
    (C := δ) (fun s hs => by
      rw [interior_Icc] at hs
      rw [(hg s hs.1.le hs.2.le).deriv]
      exact hle s hs.1.le hs.2.le)
    t ⟨le_rfl, hT⟩ T ⟨hT, le_rfl⟩ hT
  have u1 : nrm B (e T) ≤ Real.sqrt (B (e T) (e T) + ε ^ 2) := Real.sqrt_le_sqrt (by nlinarith [sq_nonneg ε])
  have u2 : Real.sqrt (B (e t) (e t) + ε ^ 2) ≤ nrm B (e t) + ε := by
    rw [Real.sqrt_le_left (by have := nrm_nonneg B (e t); positivity)]
    have : nrm B (e t) ^ 2 = B (e t) (e t) := Real.sq_sqrt (hd.nonneg _)
    nlinarith [nrm_nonneg B (e t)]
  linarith

end

end Dgtd.TimeInt
