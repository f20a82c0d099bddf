/-
Runs of the symmetric integrators forwards and backwards.
-/
import Verif.Lemmas.TimeIntMap

set_option linter.unusedSectionVars false

namespace Dgtd.TimeInt

open Dgtd.Implicit (Sdirk)
open Spec

variable {V S S' : Type} [AddCommGroup V] [Module ℝ V]

lemma run_concat (q : Sdirk ℝ) (o : Ode) (F : Tdo V S) (l : List ℝ) (dt : ℝ) :
    ∀ (x : V) (t : ℝ) (s : S), run q o F (l ++ [dt]) x t s = (run q o F l x t s).bind fun r => step q o F r.1 r.2.1 dt r.2.2 := by
  induction l with
  | nil =>
    intro x t s
    simp only [List.nil_append, run, Option.bind_eq_bind, Option.bind_some]
    cases step q o F x t dt s with
    | none => rfl
    | some r => obtain ⟨a, b, c⟩ := r; rfl
  | cons d rest ih =>
    intro x t s
    simp only [List.cons_append, run, Option.bind_eq_bind]
    cases step q o F x t d s with
    | none => rfl
    | some r => obtain ⟨a, b, c⟩ := r; simp only [Option.bind_some, ih]

/-- One step of a symmetric integrator, backwards. -/
lemma Rel.reverse {q : Sdirk ℝ} {Z L : V →ₗ[ℝ] V} (hL : ∀ x, L (Z x) = -Z (L x)) {c1 c2 c3 x y : V} :
    (Rel q .trapezoidal Z c1 c2 c3 x y → Rel q .trapezoidal Z (-L c2) (-L c1) c3 (L y) (L x)) ∧
    (Rel q .implicitMidpoint Z c1 c2 c3 x y → Rel q .implicitMidpoint Z (-L c1) c2 c3 (L y) (L x)) := by
  constructor
  · intro h
    simp only [Rel] at *
    have := congrArg L h
    simp only [map_add, map_smul, hL] at this
    linear_combination (norm := module) -this
  · rintro ⟨m, e1, e⟩
    have f1 := congrArg L e1
    have f := congrArg L e
    simp only [map_add, map_smul, hL] at f1 f
    refine ⟨L m, ?_, ?_⟩
    · linear_combination (norm := module) f1 - f
    · linear_combination (norm := module) -f

/-- With a symmetric integrator, an operator that the map `L` reverses, and the sources reversed, the steps taken in the opposite order
lead back. -/
theorem run_reverse {q : Sdirk ℝ} (hq : Ideal33 q) {F : Tdo V S} {F' : Tdo V S'} {A : V →ₗ[ℝ] V} {src src' : ℝ → V} {I : S → Prop}
    {I' : S' → Prop} (h : Solves F A src I) (h' : Solves F' A src' I') {L : V →ₗ[ℝ] V} (hL : ∀ x, L (A x) = -A (L x)) {T : ℝ}
    (hsrc : ∀ t, src' t = -L (src (T - t))) {B : V →ₗ[ℝ] V →ₗ[ℝ] ℝ} (hd : Diss B A) (hB : ∀ u, u ≠ 0 → 0 < B u u) {o : Ode}
    (ho : o = .implicitMidpoint ∨ o = .trapezoidal) (dts : List ℝ) : ∀ (x : V) (t t' : ℝ) (s : S) (s' : S'),
      (∀ dt ∈ dts, 0 ≤ dt) → I s → I' s' → T = t + dts.sum + t' →
      ∃ y r r', run q o F dts x t s = some (y, t + dts.sum, r) ∧ run q o F' dts.reverse (L y) t' s' = some (L x, t' + dts.sum, r') ∧
        I' r' := by
  have hrk : o ≠ .rk4 := by rcases ho with rfl | rfl <;> simp
  induction dts with
  | nil => exact fun x t t' s s' _ _ hs' _ => ⟨x, s, s', by simp [run], by simp [run], hs'⟩
  | cons dt rest ih =>
    intro x t t' s s' hp hs hs' hT
    have hdt := hp dt List.mem_cons_self
    rw [List.sum_cons] at hT
    obtain ⟨y, r, e, i, k⟩ := step_rel hq h hrk x t dt hdt s hs
    obtain ⟨z, v, v', f, f', i'⟩ := ih y (t + dt) t' r s' (fun d hd => hp d (List.mem_cons_of_mem _ hd)) i hs' (by rw [hT]; ring)
    obtain ⟨w, w', g, j, kb⟩ := step_rel hq h' hrk (L y) (t' + rest.sum) dt hdt v' i'
    have hw : w = L x := by
      have hZ : ∀ x, L ((dt • A) x) = -(dt • A) (L x) := fun x => by
        rw [LinearMap.smul_apply, LinearMap.smul_apply, map_smul, hL, smul_neg]
      rcases ho with rfl | rfl
      · have k2 := (Rel.reverse (q := q) hZ).2 k
        simp only [stageTimes, hsrc, Rel] at kb k2
        have e1 : T - (t' + rest.sum + dt / 2) = t + dt / 2 := by rw [hT]; ring
        rw [e1, smul_neg, ← map_smul] at kb
        exact Rel.unique (q := q) (o := .implicitMidpoint) hq (hd.smul hdt) hB (c2 := 0) (c3 := 0) kb k2
      · have k2 := (Rel.reverse (q := q) hZ).1 k
        simp only [stageTimes, hsrc, Rel] at kb k2
        have e1 : T - (t' + rest.sum) = t + dt := by rw [hT]; ring
        have e2 : T - (t' + rest.sum + dt) = t := by rw [hT]; ring
        rw [e1, e2, smul_neg, smul_neg, ← map_smul, ← map_smul] at kb
        exact Rel.unique (q := q) (o := .trapezoidal) hq (hd.smul hdt) hB (c3 := 0) kb k2
    subst hw
    refine ⟨z, v, w', ?_, ?_, j⟩
    · simp only [run, e, Option.bind_eq_bind, Option.bind_some, f, List.sum_cons, add_assoc]
    · rw [List.reverse_cons, run_concat, f', Option.bind_some, g, List.sum_cons]
      simp only [Option.some.injEq, Prod.mk.injEq, true_and, and_true]
      ring

end Dgtd.TimeInt
