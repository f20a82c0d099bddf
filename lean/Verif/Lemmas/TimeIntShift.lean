/-
Runs from a state and from the same plus something the operator takes to nothing.
-/
import Verif.Lemmas.TimeIntMap

set_option linter.unusedSectionVars false

namespace Dgtd.TimeInt

open Dgtd.Implicit (Sdirk)
open Spec

variable {V S : Type} [AddCommGroup V] [Module ℝ V]

theorem Rel.shift {q : Sdirk ℝ} {o : Ode} {Z : V →ₗ[ℝ] V} {w : V} (hw : Z w = 0) {c1 c2 c3 x y : V} (h : Rel q o Z c1 c2 c3 x y) :
    Rel q o Z c1 c2 c3 (x + w) (y + w) := by
  have m : ∀ {a b : V}, a = b → a + w = b + w := fun e => congrArg (· + w) e
  have hz : ∀ a, Z (a + w) = Z a := fun a => by rw [map_add, hw, add_zero]
  cases o with
  | rk4 => exact h
  | backwardEuler =>
    simp only [Rel, hz] at *
    exact (m h).trans (by abel)
  | trapezoidal =>
    simp only [Rel, hz] at *
    exact (m h).trans (by abel)
  | implicitMidpoint =>
    obtain ⟨a, e1, e⟩ := h
    refine ⟨a + w, ?_, ?_⟩ <;> rw [hz]
    · exact (m e1).trans (by abel)
    · exact (m e).trans (by abel)
  | sdirk33 =>
    obtain ⟨y1, y2, e1, e2, e⟩ := h
    refine ⟨y1 + w, y2 + w, ?_, ?_, ?_⟩ <;> simp only [hz]
    · exact (m e1).trans (by abel)
    · exact (m e2).trans (by abel)
    · exact (m e).trans (by abel)
  | sdirk23 =>
    obtain ⟨y1, y2, e1, e2, e⟩ := h
    refine ⟨y1 + w, y2 + w, ?_, ?_, ?_⟩ <;> simp only [hz]
    · exact (m e1).trans (by abel)
    · exact (m e2).trans (by abel)
    · exact (m e).trans (by abel)
  | sdirk34 =>
    obtain ⟨y1, y2, y3, e1, e2, e3, e⟩ := h
    refine ⟨y1 + w, y2 + w, y3 + w, ?_, ?_, ?_, ?_⟩ <;> simp only [hz]
    · exact (m e1).trans (by abel)
    · exact (m e2).trans (by abel)
    · exact (m e3).trans (by abel)
    · exact (m e).trans (by abel)

/-- With any integrator, what the operator takes to nothing is carried along unchanged. -/
theorem run_shift {q : Sdirk ℝ} (hq : Ideal33 q) {F : Tdo V S} {A : V →ₗ[ℝ] V} {src : ℝ → V} {I : S → Prop} (h : Solves F A src I)
    {w : V} (hw : A w = 0) {B : V →ₗ[ℝ] V →ₗ[ℝ] ℝ} (hd : Diss B A) (hB : ∀ u, u ≠ 0 → 0 < B u u) (o : Ode) (dts : List ℝ) :
    ∀ (x : V) (t : ℝ) (s s' : S), (∀ dt ∈ dts, 0 ≤ dt) → I s → I s' →
      ∃ y r r', run q o F dts x t s = some (y, t + dts.sum, r) ∧ run q o F dts (x + w) t s' = some (y + w, t + dts.sum, r') := by
  have hm : ∀ t x, F.mult t (x + w) = F.mult t x := by
    intro t x
    rw [h.mult, h.mult, map_add, hw, add_zero]
  induction dts with
  | nil => exact fun x t s s' _ _ _ => ⟨x, s, s', by simp [run], by simp [run]⟩
  | cons dt rest ih =>
    intro x t s s' hp hs hs'
    have hdt := hp dt List.mem_cons_self
    have hp' : ∀ d ∈ rest, 0 ≤ d := fun d hd => hp d (List.mem_cons_of_mem _ hd)
    have one : ∃ y r r', step q o F x t dt s = some (y, t + dt, r) ∧ step q o F (x + w) t dt s' = some (y + w, t + dt, r') ∧ I r ∧ I r' := by
      by_cases ho : o = .rk4
      · subst ho
        refine ⟨(rk4 F x t dt).1, s, s', rfl, ?_, hs, hs'⟩
        show some _ = _
        have e : (rk4 F (x + w) t dt).1 = (rk4 F x t dt).1 + w := by
          simp only [rk4, hm, add_right_comm x w, add_right_comm _ w]
        rw [e]
        rfl
      · obtain ⟨y, r, e, i, k⟩ := step_rel hq h ho x t dt hdt s hs
        obtain ⟨y', r', e', i', k'⟩ := step_rel hq h ho (x + w) t dt hdt s' hs'
        have : y' = y + w := k'.unique hq (hd.smul hdt) hB (k.shift (by rw [LinearMap.smul_apply, hw, smul_zero]))
        exact ⟨y, r, r', e, this ▸ e', i, i'⟩
    obtain ⟨y, r, r', e, e', i, i'⟩ := one
    obtain ⟨z, v, v', f, f'⟩ := ih y (t + dt) r r' hp' i i'
    refine ⟨z, v, v', ?_, ?_⟩
    · simp only [run, e, Option.bind_eq_bind, Option.bind_some, f, List.sum_cons, add_assoc]
    · simp only [run, e', Option.bind_eq_bind, Option.bind_some, f', List.sum_cons, add_assoc]

end Dgtd.TimeInt
