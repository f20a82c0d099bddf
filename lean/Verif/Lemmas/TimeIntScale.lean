/-
Runs after a change of the unit of time.
-/
import Verif.Lemmas.TimeIntMap

set_option linter.unusedSectionVars false

namespace Dgtd.TimeInt

open Dgtd.Implicit (Sdirk)
open Spec

variable {V S S' : Type} [AddCommGroup V] [Module ℝ V]

lemma stageTimes_scale (q : Sdirk ℝ) (o : Ode) (s t dt : ℝ) : stageTimes q o (s * t) (s * dt) =
    (s * (stageTimes q o t dt).1, s * (stageTimes q o t dt).2.1, s * (stageTimes q o t dt).2.2) := by
  refine Prod.ext ?_ (Prod.ext ?_ ?_) <;> cases o <;> simp only [stageTimes] <;> ring

lemma rk4_scale {F : Tdo V S} {F' : Tdo V S'} {s : ℝ} (hs : s ≠ 0) (h : ∀ t x, F'.mult (s * t) x = s⁻¹ • F.mult t x) (x : V) (t dt : ℝ) :
    rk4 F' x (s * t) (s * dt) = ((rk4 F x t dt).1, s * (t + dt)) := by
  have m : ∀ (c : ℝ) (v : V), (s * c) • s⁻¹ • v = c • v := fun c v => by
    rw [smul_smul]
    congr 1
    field_simp
  have e2 : s * t + s * (dt / 2) = s * (t + dt / 2) := by ring
  have e3 : s * t + s * dt = s * (t + dt) := by ring
  have d2 : s * dt / 2 = s * (dt / 2) := by ring
  have d3 : s * dt / 3 = s * (dt / 3) := by ring
  have d6 : s * dt / 6 = s * (dt / 6) := by ring
  simp only [rk4, e2, e3, d2, d3, d6, h, m]

/-- The operator divided by `s` with steps multiplied by `s`. -/
theorem run_scale {q : Sdirk ℝ} (hq : Ideal33 q) {F : Tdo V S} {F' : Tdo V S'} {A : V →ₗ[ℝ] V} {src src' : ℝ → V} {I : S → Prop}
    {I' : S' → Prop} {s : ℝ} (hs : 0 < s) (h : Solves F A src I) (h' : Solves F' (s⁻¹ • A) src' I') (hsrc : ∀ t, src' (s * t) = s⁻¹ • src t)
    {B : V →ₗ[ℝ] V →ₗ[ℝ] ℝ} (hd : Diss B A) (hB : ∀ u, u ≠ 0 → 0 < B u u) (o : Ode) (dts : List ℝ) : ∀ (x : V) (t : ℝ) (c : S) (c' : S'),
      (∀ dt ∈ dts, 0 ≤ dt) → I c → I' c' →
      ∃ y r r', run q o F dts x t c = some (y, t + dts.sum, r) ∧ run q o F' (dts.map (s * ·)) x (s * t) c' = some (y, s * (t + dts.sum), r') := by
  induction dts with
  | nil => exact fun x t c c' _ _ _ => ⟨x, c, c', by simp [run], by simp [run]⟩
  | cons dt rest ih =>
    intro x t c c' hp hc hc'
    have hdt := hp dt List.mem_cons_self
    have one : ∃ y r r', step q o F x t dt c = some (y, t + dt, r) ∧ step q o F' x (s * t) (s * dt) c' = some (y, s * (t + dt), r') ∧ I r ∧ I' r' := by
      by_cases ho : o = .rk4
      · subst ho
        refine ⟨(rk4 F x t dt).1, c, c', rfl, ?_, hc, hc'⟩
        have hm : ∀ t x, F'.mult (s * t) x = s⁻¹ • F.mult t x := by
          intro t x
          rw [h.mult, h'.mult, hsrc, LinearMap.smul_apply, smul_add]
        simp only [step, rk4_scale hs.ne' hm]
      · obtain ⟨y, r, e, i, k⟩ := step_rel hq h ho x t dt hdt c hc
        obtain ⟨y', r', e', i', k'⟩ := step_rel hq h' ho x (s * t) (s * dt) (mul_nonneg hs.le hdt) c' hc'
        have m : ∀ v : V, (s * dt) • s⁻¹ • v = dt • v := fun v => by
          rw [smul_smul]
          congr 1
          field_simp
        have mA : (s * dt) • s⁻¹ • A = dt • A := by
          ext v
          exact m (A v)
        rw [stageTimes_scale] at k'
        simp only [hsrc, m, mA] at k'
        have : y' = y := k'.unique hq (hd.smul hdt) hB k
        subst this
        exact ⟨y', r, r', e, by rw [e', ← mul_add], i, i'⟩
    obtain ⟨y, r, r', e, e', i, i'⟩ := one
    obtain ⟨z, v, v', f, f'⟩ := ih y (t + dt) r r' (fun d hd => hp d (List.mem_cons_of_mem _ hd)) i i'
    refine ⟨z, v, v', ?_, ?_⟩
    · simp only [run, e, Option.bind_eq_bind, Option.bind_some, f, List.sum_cons, add_assoc]
    · simp only [List.map_cons, run, e', Option.bind_eq_bind, Option.bind_some, f', List.sum_cons, add_assoc]

end Dgtd.TimeInt
