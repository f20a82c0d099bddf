/-
Runs of two operators that a linear map intertwines.
-/
import Verif.Lemmas.TimeIntRel

set_option linter.unusedSectionVars false

namespace Dgtd.TimeInt

open Dgtd.Implicit (Sdirk)
open Spec

variable {V V' S S' : Type} [AddCommGroup V] [Module ℝ V] [AddCommGroup V'] [Module ℝ V']

theorem Rel.map {q : Sdirk ℝ} {o : Ode} {Z : V →ₗ[ℝ] V} {Z' : V' →ₗ[ℝ] V'} {L : V →ₗ[ℝ] V'} (hL : ∀ x, L (Z x) = Z' (L x))
    {c1 c2 c3 x y : V} (h : Rel q o Z c1 c2 c3 x y) : Rel q o Z' (L c1) (L c2) (L c3) (L x) (L y) := by
  have m : ∀ {a b : V}, a = b → L a = L b := fun e => congrArg L e
  cases o with
  | rk4 => exact h
  | backwardEuler =>
    simp only [Rel] at *
    have := m h
    simp only [map_add, hL] at this
    exact this
  | trapezoidal =>
    simp only [Rel] at *
    have := m h
    simp only [map_add, map_smul, hL] at this
    simpa only [smul_add] using this
  | implicitMidpoint =>
    obtain ⟨a, e1, e⟩ := h
    have e1 := m e1
    have e := m e
    simp only [map_add, map_smul, hL] at e1 e
    exact ⟨L a, e1, e⟩
  | sdirk33 =>
    obtain ⟨y1, y2, e1, e2, e⟩ := h
    have e1 := m e1
    have e2 := m e2
    have e := m e
    simp only [map_add, map_smul, hL] at e1 e2 e
    exact ⟨L y1, L y2, e1, e2, e⟩
  | sdirk23 =>
    obtain ⟨y1, y2, e1, e2, e⟩ := h
    have e1 := m e1
    have e2 := m e2
    have e := m e
    simp only [map_add, map_smul, hL] at e1 e2 e
    exact ⟨L y1, L y2, e1, e2, e⟩
  | sdirk34 =>
    obtain ⟨y1, y2, y3, e1, e2, e3, e⟩ := h
    have e1 := m e1
    have e2 := m e2
    have e3 := m e3
    have e := m e
    simp only [map_add, map_smul, hL] at e1 e2 e3 e
    exact ⟨L y1, L y2, L y3, e1, e2, e3, e⟩

theorem Rel.unique {q : Sdirk ℝ} (hq : Ideal33 q) {o : Ode} {B : V →ₗ[ℝ] V →ₗ[ℝ] ℝ} {Z : V →ₗ[ℝ] V} (hd : Diss B Z)
    (hB : ∀ u, u ≠ 0 → 0 < B u u) {c1 c2 c3 x y y' : V} (h : Rel q o Z c1 c2 c3 x y) (h' : Rel q o Z c1 c2 c3 x y') : y = y' := by
  by_contra hne
  have := (h.sub h').energy hq hd
  rw [sub_self, map_zero] at this
  exact absurd this (not_le.2 (hB _ (sub_ne_zero.2 hne)))

theorem rk4_intertwine {F : Tdo V S} {F' : Tdo V' S'} {L : V →ₗ[ℝ] V'} (h : ∀ t x, L (F.mult t x) = F'.mult t (L x)) (x : V)
    (t dt : ℝ) : (rk4 F' (L x) t dt).1 = L (rk4 F x t dt).1 := by
  simp only [rk4, map_add, map_smul, h]

/-- With any integrator, the run of the second operator from the image is the image of the run of the first. -/
theorem run_intertwine {q : Sdirk ℝ} (hq : Ideal33 q) {F : Tdo V S} {A : V →ₗ[ℝ] V} {src : ℝ → V} {I : S → Prop}
    (h : Solves F A src I) {F' : Tdo V' S'} {A' : V' →ₗ[ℝ] V'} {src' : ℝ → V'} {I' : S' → Prop} (h' : Solves F' A' src' I')
    {L : V →ₗ[ℝ] V'} (hA : ∀ x, L (A x) = A' (L x)) (hsrc : ∀ t, L (src t) = src' t) {B : V' →ₗ[ℝ] V' →ₗ[ℝ] ℝ} (hd : Diss B A')
    (hB : ∀ u, u ≠ 0 → 0 < B u u) (o : Ode) (dts : List ℝ) : ∀ (x : V) (t : ℝ) (s : S) (s' : S'), (∀ dt ∈ dts, 0 ≤ dt) → I s → I' s' →
      ∃ y r r', run q o F dts x t s = some (y, t + dts.sum, r) ∧ run q o F' dts (L x) t s' = some (L y, t + dts.sum, r') := by
  have hm : ∀ t x, L (F.mult t x) = F'.mult t (L x) := by
    intro t x
    rw [h.mult, h'.mult, map_add, hA, hsrc]
  induction dts with
  | nil => exact fun x t s s' _ _ _ => ⟨x, s, s', by simp [run], by simp [run]⟩
  | cons dt rest ih =>
    intro x t s s' hp hs hs'
    have hdt := hp dt List.mem_cons_self
    have hp' : ∀ d ∈ rest, 0 ≤ d := fun d hd => hp d (List.mem_cons_of_mem _ hd)
    have one : ∃ y r r', step q o F x t dt s = some (y, t + dt, r) ∧ step q o F' (L x) t dt s' = some (L y, t + dt, r') ∧ I r ∧ I' r' := by
      by_cases ho : o = .rk4
      · subst ho
        refine ⟨(rk4 F x t dt).1, s, s', rfl, ?_, hs, hs'⟩
        show some _ = _
        rw [rk4_intertwine hm]
        rfl
      · obtain ⟨y, r, e, i, k⟩ := step_rel hq h ho x t dt hdt s hs
        obtain ⟨y', r', e', i', k'⟩ := step_rel hq h' ho (L x) t dt hdt s' hs'
        have k2 := k.map (L := L) (Z' := dt • A') (by
          intro x
          rw [LinearMap.smul_apply, LinearMap.smul_apply, map_smul, hA])
        simp only [map_smul, hsrc] at k2
        have : y' = L y := k'.unique hq (hd.smul hdt) hB k2
        exact ⟨y, r, r', e, this ▸ e', i, i'⟩
    obtain ⟨y, r, r', e, e', i, i'⟩ := one
    obtain ⟨z, v, v', f, f'⟩ := ih y (t + dt) r r' hp' i i'
    refine ⟨z, v, v', ?_, ?_⟩
    · simp only [run, e, Option.bind_eq_bind, Option.bind_some, f, List.sum_cons, add_assoc]
    · simp only [run, e', Option.bind_eq_bind, Option.bind_some, f', List.sum_cons, add_assoc]

end Dgtd.TimeInt
