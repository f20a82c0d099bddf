/-
C122 with sources: convergence of the seven integrators for any smooth sources, and of explicit runs with plane waves.
-/
import Verif.Lemmas.TimeIntSmooth
import Mathlib.Analysis.SpecialFunctions.Trigonometric.Deriv
import Verif.Props.ParSource

set_option linter.unusedSectionVars false

namespace Dgtd.TimeInt

open Op Op.Spec Implicit Spec

section
variable {ι : Type} [Fintype ι] [DecidableEq ι]

theorem flat_driven {P : Prob ι ℝ} {A : Matrix (Slot ι) (Slot ι) ℝ}
    (hA : ∀ u : State ι ℝ, A.mulVec (flat u) = flat (globalMult P u)) {k : Nat} {src : ℝ → State ι ℝ}
    {u : Nat → ℝ → State ι ℝ} (hu : ∀ n ≤ k, ∀ t f d i, HasDerivAt (fun s => u n s f d i) (u (n + 1) t f d i) t)
    (he : ∀ t, u 1 t = globalMult P (u 0 t) + src t) :
    Driven k A.mulVecLin (fun t => flat (src t)) (fun n t => flat (u n t)) where
  smooth := fun n hn t => hasDerivAt_pi.2 fun s => hu n (by omega) t s.1 s.2.1 s.2.2
  eq := by
    intro t
    rw [Matrix.mulVecLin_apply, hA, he]
    rfl

/-- **C122** with sources: an implicit integrator of order `k` with steps of at most `H`, of any sizes, ends within the
elapsed time times `H^k` times a bound on the derivatives of the exact solution, for any sources for which that solution
(`u 0`, with derivatives `u 1`, `u 2`, …) has `k + 1` derivatives.  The derivatives are looked at a little beyond the run
(`11/10 H` before and after), because the last scheme samples the sources there. -/
theorem C122_driven_implicit (q : Sdirk ℝ) (hq : Ideal33 q) (P : Prob ι ℝ) (M : FieldT → Matrix ι ι ℝ)
    (h : Op.Spec.Good P M) (ha : 0 ≤ P.alpha) (hs : ∀ v : ι → ℝ, 0 ≤ v ⬝ᵥ P.Msig.mulVec v)
    (hM : ∀ u, u ≠ 0 → 0 < energy M u) (A : Matrix (Slot ι) (Slot ι) ℝ)
    (hA : ∀ u : State ι ℝ, A.mulVec (flat u) = flat (globalMult P u)) (o : Ode) (ho : o ≠ .rk4)
    (src : ℝ → State ι ℝ) (u : Nat → ℝ → State ι ℝ)
    (hu : ∀ n ≤ order o, ∀ t f d i, HasDerivAt (fun s => u n s f d i) (u (n + 1) t f d i) t)
    (he : ∀ t, u 1 t = globalMult P (u 0 t) + src t)
    (H K : ℝ) (dts : List ℝ) (hdts : ∀ dt ∈ dts, 0 ≤ dt ∧ dt ≤ H) (t : ℝ)
    (hK : ∀ j n, j + n = order o + 1 → 2 ≤ n → ∀ s, t - 11 / 10 * H ≤ s → s ≤ t + dts.sum + 11 / 10 * H →
      size M ((globalMult P)^[j] (u n s)) ≤ K) :
    ∃ y c, run q o (globalTdo A fun t => flat (src t)) dts (flat (u 0 t)) t fresh = some (flat y, t + dts.sum, c) ∧
      size M (y - u 0 (t + dts.sum)) ≤ 2 * dts.sum * H ^ order o * K := by
  obtain ⟨y, r, e, -, le⟩ := run_driven hq (global_solves h ha hs hM hA fun t => flat (src t)) (eform_diss h ha hs hM hA) ho
    (flat_driven hA hu he) H dts (flat (u 0 t)) t fresh hdts
    (fun j n hj hn s h1 h2 => by
      show nrm (eform M) ((A.mulVecLin ^ j) (flat (u n s))) ≤ K
      rw [flat_pow hA]
      exact hK j n hj hn s h1 h2) (good_fresh A)
  refine ⟨unflat y, r, e, ?_⟩
  have z : nrm (eform M) (flat (u 0 t) - flat (u 0 t)) = 0 := by
    rw [sub_self, nrm]
    simp
  simp only [z, zero_add] at le
  exact le

/-- **C122** with sources, explicit integrator within the bound of C119, for equal steps and a shorter last one. -/
theorem C122_driven_explicit (q : Sdirk ℝ) (P : Prob ι ℝ) (M : FieldT → Matrix ι ι ℝ)
    (h : Op.Spec.Good P M) (ha : 0 ≤ P.alpha) (hs : ∀ v : ι → ℝ, 0 ≤ v ⬝ᵥ P.Msig.mulVec v)
    (hM : ∀ u, u ≠ 0 → 0 < energy M u) (A : Matrix (Slot ι) (Slot ι) ℝ)
    (hA : ∀ u : State ι ℝ, A.mulVec (flat u) = flat (globalMult P u))
    (src : ℝ → State ι ℝ) (u : Nat → ℝ → State ι ℝ)
    (hu : ∀ n ≤ 4, ∀ t f d i, HasDerivAt (fun s => u n s f d i) (u (n + 1) t f d i) t)
    (he : ∀ t, u 1 t = globalMult P (u 0 t) + src t) (L : ℝ) (hL0 : 0 ≤ L)
    (hL : ∀ u : State ι ℝ, energy M (globalMult P u) ≤ L ^ 2 * energy M u) (dt last K : ℝ) (h0 : 0 ≤ last) (hl : last ≤ dt)
    (hdt : dt * L ≤ 1 / 4) (n : Nat) (t : ℝ)
    (hK : ∀ j m, j + m = 5 → 2 ≤ m → ∀ s, t - 11 / 10 * dt ≤ s → s ≤ t + n * dt + last + 11 / 10 * dt →
      size M ((globalMult P)^[j] (u m s)) ≤ K) :
    ∃ y c, run q .rk4 (globalTdo A fun t => flat (src t)) (List.replicate n dt ++ [last]) (flat (u 0 t)) t fresh =
        some (flat y, t + n * dt + last, c) ∧
      size M (y - u 0 (t + n * dt + last)) ≤ (n * dt + last) * dt ^ 4 * K := by
  have hD := eform_diss h ha hs hM hA
  have hE : ∀ u, 0 ≤ energy M u := fun u => hD.nonneg (flat u)
  have hsq : ∀ {d : ℝ}, 0 ≤ d → d ≤ dt → (d * L) ^ 2 ≤ 1 / 16 := by
    intro d hd hd'
    have h1 : d * L ≤ 1 / 4 := (mul_le_mul_of_nonneg_right hd' hL0).trans hdt
    have h2 : 0 ≤ d * L := mul_nonneg hd hL0
    nlinarith
  obtain ⟨y, e, le⟩ := run_rk4_driven_last q (F := globalTdo A fun t => flat (src t)) (s := fresh)
    (fun t x => by simp [globalTdo]) hD h0 hl (scaled_bound hA hL hE (hsq (h0.trans hl) (le_refl _)))
    (scaled_bound hA hL hE (hsq h0 hl)) (flat_driven hA hu he) n t
    (fun j m hj hm s h1 h2 => by
      show nrm (eform M) ((A.mulVecLin ^ j) (flat (u m s))) ≤ K
      rw [flat_pow hA]
      exact hK j m hj hm s h1 h2)
  exact ⟨unflat y, fresh, e, le⟩

theorem flat_contDiff {k : Nat} {src : ℝ → State ι ℝ} (h : ∀ f d i, ContDiff ℝ k fun t => src t f d i) :
    ContDiff ℝ k fun t => flat (src t) := contDiff_pi.2 fun s => h s.1 s.2.1 s.2.2

theorem flat_solution {P : Prob ι ℝ} {A : Matrix (Slot ι) (Slot ι) ℝ}
    (hA : ∀ u : State ι ℝ, A.mulVec (flat u) = flat (globalMult P u)) {src u : ℝ → State ι ℝ}
    (hu : ∀ t f d i, HasDerivAt (fun s => u s f d i) (globalMult P (u t) f d i + src t f d i) t) (t : ℝ) :
    HasDerivAt (fun s => flat (u s)) (A.mulVecLin (flat (u t)) + flat (src t)) t := by
  rw [Matrix.mulVecLin_apply, hA]
  exact hasDerivAt_pi.2 fun s => hu t s.1 s.2.1 s.2.2

/-- **C122**: the semi-discrete equations have exactly one solution through any fields, for any continuous sources. -/
theorem C122_solution (P : Prob ι ℝ) (M : FieldT → Matrix ι ι ℝ) (h : Op.Spec.Good P M) (ha : 0 ≤ P.alpha)
    (hs : ∀ v : ι → ℝ, 0 ≤ v ⬝ᵥ P.Msig.mulVec v) (hM : ∀ u, u ≠ 0 → 0 < energy M u) (src : ℝ → State ι ℝ)
    (hsrc : ∀ f d i, Continuous fun t => src t f d i) (t : ℝ) (x : State ι ℝ) :
    (∃ u : ℝ → State ι ℝ, u t = x ∧
      ∀ r f d i, HasDerivAt (fun s => u s f d i) (globalMult P (u r) f d i + src r f d i) r) ∧
    ∀ u w : ℝ → State ι ℝ, u t = x → w t = x →
      (∀ r f d i, HasDerivAt (fun s => u s f d i) (globalMult P (u r) f d i + src r f d i) r) →
      (∀ r f d i, HasDerivAt (fun s => w s f d i) (globalMult P (w r) f d i + src r f d i) r) → ∀ s, t ≤ s → u s = w s := by
  obtain ⟨A, hA⟩ := exists_matrix P
  constructor
  · obtain ⟨v, hv, hd⟩ := exists_solution A.mulVecLin (src := fun t => flat (src t))
      (continuous_pi fun s => hsrc s.1 s.2.1 s.2.2) t (flat x)
    refine ⟨fun s => unflat (v s), congrArg unflat hv, ?_⟩
    intro r f d i
    have h1 := hasDerivAt_pi.1 (hd r) (f, d, i)
    have e : A.mulVecLin (v r) = flat (globalMult P (unflat (v r))) := by
      rw [Matrix.mulVecLin_apply, ← hA]
      rfl
    rw [e] at h1
    exact h1
  · intro u w hu hw du dw s hts
    have := solution_unique (eform_diss h ha hs hM hA) (flat_solution hA du) (flat_solution hA dw) hts
    rw [hu, hw, sub_self] at this
    have h0 : nrm (eform M) (0 : Slot ι → ℝ) = 0 := by simp [nrm]
    rw [h0] at this
    by_contra hne
    have h1 : u s - w s ≠ 0 := sub_ne_zero.2 hne
    have h2 := hM _ h1
    have h3 : nrm (eform M) (flat (u s) - flat (w s)) = Real.sqrt (energy M (u s - w s)) := rfl
    rw [h3] at this
    exact absurd (Real.sqrt_pos.2 h2) (not_lt.2 this)

/-- **C122**: convergence of the implicit integrators.  For sources with as many derivatives as the order `k` of the
integrator, any exact solution and any final time there is a constant such that every run with steps of at most `H` ends
within the constant times `H^k` of the solution. -/
theorem C122_converges_implicit (q : Sdirk ℝ) (hq : Ideal33 q) (P : Prob ι ℝ) (M : FieldT → Matrix ι ι ℝ)
    (h : Op.Spec.Good P M) (ha : 0 ≤ P.alpha) (hs : ∀ v : ι → ℝ, 0 ≤ v ⬝ᵥ P.Msig.mulVec v)
    (hM : ∀ u, u ≠ 0 → 0 < energy M u) (A : Matrix (Slot ι) (Slot ι) ℝ)
    (hA : ∀ u : State ι ℝ, A.mulVec (flat u) = flat (globalMult P u)) (o : Ode) (ho : o ≠ .rk4)
    (src : ℝ → State ι ℝ) (hsrc : ∀ f d i, ContDiff ℝ (order o) fun t => src t f d i) (u : ℝ → State ι ℝ)
    (hu : ∀ t f d i, HasDerivAt (fun s => u s f d i) (globalMult P (u t) f d i + src t f d i) t) (t T : ℝ) :
    ∃ C, ∀ (H : ℝ) (dts : List ℝ), 0 ≤ H → H ≤ 1 → (∀ dt ∈ dts, 0 ≤ dt ∧ dt ≤ H) → dts.sum ≤ T →
      ∃ y c, run q o (globalTdo A fun t => flat (src t)) dts (flat (u t)) t fresh = some (flat y, t + dts.sum, c) ∧
        size M (y - u (t + dts.sum)) ≤ C * H ^ order o := by
  have hc := flat_contDiff hsrc
  have hd := flat_solution hA hu
  obtain ⟨K, K0, hK⟩ := derivs_bounded (eform M) hc hd (t - 2) (t + T + 2)
  refine ⟨2 * T * K, ?_⟩
  intro H dts hH0 hH hdts hT
  obtain ⟨y, r, e, -, le⟩ := run_driven hq (global_solves h ha hs hM hA fun t => flat (src t)) (eform_diss h ha hs hM hA) ho
    (derivs_driven hc hd) H dts (flat (u t)) t fresh hdts
    (fun j n hj hn s h1 h2 => hK j n hj s (by linarith) (by linarith)) (good_fresh A)
  refine ⟨unflat y, r, e, ?_⟩
  have z : nrm (eform M) (flat (u t) - derivs A.mulVecLin (fun t => flat (src t)) (fun s => flat (u s)) 0 t) = 0 := by
    have : derivs A.mulVecLin (fun t => flat (src t)) (fun s => flat (u s)) 0 t = flat (u t) := rfl
    rw [this, sub_self, nrm]
    simp
  rw [z, zero_add] at le
  have le' : size M (unflat y - u (t + dts.sum)) ≤ 2 * dts.sum * H ^ order o * K := le
  refine le'.trans ?_
  have := mul_nonneg (pow_nonneg hH0 (order o)) K0
  nlinarith

/-- **C122**: convergence of the explicit integrator. -/
theorem C122_converges_explicit (q : Sdirk ℝ) (P : Prob ι ℝ) (M : FieldT → Matrix ι ι ℝ)
    (h : Op.Spec.Good P M) (ha : 0 ≤ P.alpha) (hs : ∀ v : ι → ℝ, 0 ≤ v ⬝ᵥ P.Msig.mulVec v)
    (hM : ∀ u, u ≠ 0 → 0 < energy M u) (A : Matrix (Slot ι) (Slot ι) ℝ)
    (hA : ∀ u : State ι ℝ, A.mulVec (flat u) = flat (globalMult P u))
    (src : ℝ → State ι ℝ) (hsrc : ∀ f d i, ContDiff ℝ 4 fun t => src t f d i) (u : ℝ → State ι ℝ)
    (hu : ∀ t f d i, HasDerivAt (fun s => u s f d i) (globalMult P (u t) f d i + src t f d i) t) (L : ℝ) (hL0 : 0 ≤ L)
    (hL : ∀ u : State ι ℝ, energy M (globalMult P u) ≤ L ^ 2 * energy M u) (t T : ℝ) :
    ∃ C, ∀ (dt last : ℝ) (n : Nat), 0 ≤ last → last ≤ dt → dt ≤ 1 → dt * L ≤ 1 / 4 → n * dt + last ≤ T →
      ∃ y c, run q .rk4 (globalTdo A fun t => flat (src t)) (List.replicate n dt ++ [last]) (flat (u t)) t fresh =
          some (flat y, t + n * dt + last, c) ∧
        size M (y - u (t + n * dt + last)) ≤ C * dt ^ 4 := by
  have hc := flat_contDiff (k := 4) hsrc
  have hd := flat_solution hA hu
  obtain ⟨K, K0, hK⟩ := derivs_bounded (eform M) hc hd (t - 2) (t + T + 2)
  refine ⟨T * K, ?_⟩
  intro dt last n h0 hl hdt1 hdt hT
  have hD := eform_diss h ha hs hM hA
  have hE : ∀ u, 0 ≤ energy M u := fun u => hD.nonneg (flat u)
  have hsq : ∀ {d : ℝ}, 0 ≤ d → d ≤ dt → (d * L) ^ 2 ≤ 1 / 16 := by
    intro d hd hd'
    have h1 : d * L ≤ 1 / 4 := (mul_le_mul_of_nonneg_right hd' hL0).trans hdt
    have h2 : 0 ≤ d * L := mul_nonneg hd hL0
    nlinarith
  obtain ⟨y, e, le⟩ := run_rk4_driven_last q (F := globalTdo A fun t => flat (src t)) (s := fresh)
    (fun t x => by simp [globalTdo]) hD h0 hl (scaled_bound hA hL hE (hsq (h0.trans hl) (le_refl _)))
    (scaled_bound hA hL hE (hsq h0 hl)) (derivs_driven hc hd) n t
    (fun j m hj hm s h1 h2 => hK j m hj s (by linarith) (by linarith))
  refine ⟨unflat y, fresh, e, ?_⟩
  have le' : size M (unflat y - u (t + n * dt + last)) ≤ (n * dt + last) * dt ^ 4 * K := le
  refine le'.trans ?_
  have := mul_nonneg (pow_nonneg (h0.trans hl) 4) K0
  nlinarith

end

/-! ### The hypotheses hold for the concrete problem, driven by an oscillating source -/

/-- The fields `E_y = sin t` and their derivatives. -/
noncomputable def swing (n : Nat) (t : ℝ) : State (Fin 1) ℝ := ey (Real.sin (t + n * (Real.pi / 2)))

/-- The source that they need on the rod. -/
noncomputable def drive (t : ℝ) : State (Fin 1) ℝ := ey (Real.cos t + 4 * Real.sin t)

theorem swing_deriv (n : Nat) (t : ℝ) (f : FieldT) (d : Dir) (i : Fin 1) :
    HasDerivAt (fun s => swing n s f d i) (swing (n + 1) t f d i) t := by
  by_cases h : f = .E ∧ d = 1
  · simp only [swing, ey, if_pos h]
    have h1 : HasDerivAt (fun s : ℝ => s + n * (Real.pi / 2)) 1 t := (hasDerivAt_id t).add_const _
    have h2 := h1.sin
    rw [mul_one] at h2
    refine h2.congr_deriv ?_
    rw [← Real.sin_add_pi_div_two]
    push_cast
    congr 1
    ring
  · simp only [swing, ey, if_neg h]
    exact hasDerivAt_const t 0

theorem swing_eq (t : ℝ) : swing 1 t = globalMult (rod 1 4) (swing 0 t) + drive t := by
  have h1 : Real.sin (t + (1 : Nat) * (Real.pi / 2)) = Real.cos t := by
    rw [Nat.cast_one, one_mul, Real.sin_add_pi_div_two]
  unfold swing drive
  rw [rod_rate, h1]
  funext f d i
  by_cases h : f = .E ∧ d = 1
  · simp only [ey, if_pos h, Pi.add_apply]
    norm_num
  · simp only [ey, if_neg h, Pi.add_apply, add_zero]

theorem swing_size (j n : Nat) (t : ℝ) : size (fun _ => 1) ((globalMult (rod 1 4))^[j] (swing n t)) ≤ 4 ^ j := by
  have h1 : ∀ a : ℝ, (globalMult (rod 1 4))^[j] (ey a) = ey ((-4) ^ j * a) := by
    intro a
    induction j generalizing a with
    | zero => simp
    | succ j ih => rw [Function.iterate_succ, Function.comp_apply, rod_rate, ih, pow_succ]; ring_nf
  unfold swing size
  rw [h1, ey_energy, Real.sqrt_le_left (by positivity)]
  have h2 := Real.sin_sq_le_one (t + n * (Real.pi / 2))
  have h3 : ((-4 : ℝ) ^ j) ^ 2 = (4 ^ j) ^ 2 := by rw [← pow_mul, ← pow_mul, mul_comm, pow_mul, pow_mul]; norm_num
  rw [mul_pow, h3]
  have h4 : (0 : ℝ) ≤ (4 ^ j) ^ 2 := by positivity
  nlinarith

example : ∃ q A, Ideal33 q ∧ (∀ u, A.mulVec (flat u) = flat (globalMult (rod 1 4) u)) ∧
    ∃ y c, run q .sdirk34 (globalTdo A fun t => flat (drive t)) [1 / 10, 1 / 20] (flat (swing 0 0)) 0 fresh =
        some (flat y, 0 + [1 / 10, 1 / 20].sum, c) ∧
      size (fun _ => 1) (y - swing 0 (0 + [1 / 10, 1 / 20].sum)) ≤ 2 * [1 / 10, 1 / 20].sum * (1 / 10) ^ 4 * 64 := by
  obtain ⟨q, hq⟩ := exists_ideal33
  obtain ⟨A, hA⟩ := exists_matrix (rod 1 4)
  refine ⟨q, A, hq, hA, C122_driven_implicit q hq _ _ (rod_good 1 4) (by norm_num [rod]) (rod_cond 1 4 (by norm_num)) rod_pos A hA
    .sdirk34 (by simp) drive swing (fun n _ => swing_deriv n) swing_eq (1 / 10) 64 _
    (by intro d hd; simp at hd; rcases hd with rfl | rfl <;> norm_num) 0 ?_⟩
  intro j n hj hn s _ _
  refine (swing_size j n s).trans ?_
  have : j ≤ 3 := by simp only [order] at hj; omega
  calc (4 : ℝ) ^ j ≤ 4 ^ 3 := pow_le_pow_right₀ (by norm_num) this
    _ = 64 := by norm_num

example : ∃ q A, Ideal33 q ∧ (∀ u, A.mulVec (flat u) = flat (globalMult (rod 1 4) u)) ∧
    ∃ C, ∀ (H : ℝ) (dts : List ℝ), 0 ≤ H → H ≤ 1 → (∀ dt ∈ dts, 0 ≤ dt ∧ dt ≤ H) → dts.sum ≤ 5 →
      ∃ y c, run q .sdirk33 (globalTdo A fun t => flat (drive t)) dts (flat (swing 0 0)) 0 fresh = some (flat y, 0 + dts.sum, c) ∧
        size (fun _ => 1) (y - swing 0 (0 + dts.sum)) ≤ C * H ^ 3 := by
  obtain ⟨q, hq⟩ := exists_ideal33
  obtain ⟨A, hA⟩ := exists_matrix (rod 1 4)
  refine ⟨q, A, hq, hA, C122_converges_implicit q hq _ _ (rod_good 1 4) (by norm_num [rod]) (rod_cond 1 4 (by norm_num)) rod_pos A
    hA .sdirk33 (by simp) drive ?_ (swing 0) ?_ 0 5⟩
  · intro f d i
    by_cases h : f = .E ∧ d = 1
    · simp only [drive, ey, if_pos h]
      exact Real.contDiff_cos.add (contDiff_const.mul Real.contDiff_sin)
    · simp only [drive, ey, if_neg h]
      exact contDiff_const
  · intro t f d i
    have := swing_deriv 0 t f d i
    rw [swing_eq] at this
    exact this

end Dgtd.TimeInt

namespace Dgtd.Par

open Dgtd.Op Dgtd.Op.Spec Spec Dgtd.TimeInt Dgtd.TimeInt.Spec
open Dgtd.Implicit (Sdirk)

section
variable {ι : Type} [Fintype ι] [DecidableEq ι]

theorem opL_pow (P : Prob ι ℝ) (j : Nat) (u : State ι ℝ) : (opL P ^ j) u = (globalMult P)^[j] u := by
  induction j generalizing u with
  | zero => rfl
  | succ j ih =>
    rw [pow_succ, Module.End.mul_apply, ih, Function.iterate_succ, Function.comp_apply]
    rfl

/-- An explicit run with all the waves against the exact solution. -/
theorem waves_all (C : Case ι ℝ) (M : FieldT → Matrix ι ι ℝ) (h : Op.Spec.Good C.prob M) (ha : 0 ≤ C.alpha)
    (hs : ∀ v : ι → ℝ, 0 ≤ v ⬝ᵥ C.Msig.mulVec v) (hM : ∀ u, u ≠ 0 → 0 < energy M u) (L : ℝ) (hL0 : 0 ≤ L)
    (hL : ∀ u, energy M (globalMult C.prob u) ≤ L ^ 2 * energy M u) (q : Sdirk ℝ) {T : Type} (s : T)
    (waves : ℝ → List (State ι ℝ)) (u : Nat → ℝ → State ι ℝ)
    (hu : ∀ n ≤ 4, ∀ t f d i, HasDerivAt (fun s => u n s f d i) (u (n + 1) t f d i) t)
    (he : ∀ t f d i, u 1 t f d i = globalMult C.prob (u 0 t) f d i -
      applyBlocks (sourceBlocks C C.tfFaces) (sourceField C (waves t)) f d i)
    (dt last K : ℝ) (h0 : 0 ≤ last) (hl : last ≤ dt) (hdt : dt * L ≤ 1 / 4) (n : Nat) (t : ℝ)
    (hK : ∀ j m, j + m = 5 → 2 ≤ m → ∀ r, t - 11 / 10 * dt ≤ r → r ≤ t + n * dt + last + 11 / 10 * dt →
      size M ((globalMult C.prob)^[j] (u m r)) ≤ K) :
    ∃ y, run q .rk4 (explicitTdo fun t v f d i => globalMult C.prob v f d i -
            applyBlocks (sourceBlocks C C.tfFaces) (sourceField C (waves t)) f d i)
          (List.replicate n dt ++ [last]) (u 0 t) t s = some (y, t + n * dt + last, s) ∧
        size M (y - u 0 (t + n * dt + last)) ≤ (n * dt + last) * dt ^ 4 * K := by
  have hD := sform_diss h ha hs hM
  have hb : ∀ d, 0 ≤ d → d ≤ dt → ∀ x, sform M ((d • opL C.prob) x) ((d • opL C.prob) x) ≤ 1 / 16 * sform M x x := by
    intro d hd hd' x
    have e : sform M ((d • opL C.prob) x) ((d • opL C.prob) x) = d ^ 2 * energy M (globalMult C.prob x) := by
      rw [LinearMap.smul_apply, map_smul, map_smul, LinearMap.smul_apply, smul_eq_mul, smul_eq_mul, ← mul_assoc, ← sq]
      rfl
    have h1 : d * L ≤ 1 / 4 := (mul_le_mul_of_nonneg_right hd' hL0).trans hdt
    have h2 : (d * L) ^ 2 ≤ 1 / 16 := by nlinarith [mul_nonneg hd hL0]
    rw [e]
    calc d ^ 2 * energy M (globalMult C.prob x) ≤ d ^ 2 * (L ^ 2 * energy M x) :=
          mul_le_mul_of_nonneg_left (hL x) (sq_nonneg d)
      _ = (d * L) ^ 2 * energy M x := by ring
      _ ≤ 1 / 16 * energy M x := mul_le_mul_of_nonneg_right h2 (hD.nonneg x)
  have hv : Driven 4 (opL C.prob) (fun t => -applyL (sourceBlocks C C.tfFaces) (sourceField C (waves t))) u := by
    refine ⟨fun n hn t => ?_, fun t => ?_⟩
    · exact hasDerivAt_pi.2 fun f => hasDerivAt_pi.2 fun d => hasDerivAt_pi.2 fun i => hu n (by omega) t f d i
    · funext f d i
      rw [he]
      exact sub_eq_add_neg _ _
  exact run_rk4_driven_last q (F := explicitTdo fun t x f d i => globalMult C.prob x f d i -
      applyBlocks (sourceBlocks C C.tfFaces) (sourceField C (waves t)) f d i)
    (by intro t x; funext f d i; exact sub_eq_add_neg _ _) hD h0 hl (hb dt (h0.trans hl) le_rfl) (hb last h0 hl) hv n t s
    (fun j m hj hm r h1 h2 => by
      rw [opL_pow]
      exact hK j m hj hm r h1 h2)

/-- **C122** with plane waves, on any number of ranks: the fields that the ranks hold at the end of a run of explicit steps
are those of an exact solution of the semi-discrete equations with all the waves, up to the elapsed time times `dt^4` times
a bound on its derivatives and up to what the neglected waves add (C128). -/
theorem C122_waves (C : Case ι ℝ) (M : FieldT → Matrix ι ι ℝ) (h : Op.Spec.Good C.prob M) (ha : 0 ≤ C.alpha)
    (hs : ∀ v : ι → ℝ, 0 ≤ v ⬝ᵥ C.Msig.mulVec v) (hM : ∀ u, u ≠ 0 → 0 < energy M u) :
    ∃ c, 0 ≤ c ∧ ∀ {R : Type} [DecidableEq R] {N G : R → Nat} {Q : (r : R) → RankCase (N r) (G r) ℝ}
      {src : (r : R) → Fin (G r) → (q : R) × Fin (N q)} {num : (r : R) → Fin (N r + G r) → ι} {side1 side2 : Face ι ℝ → R},
      SplitCase C Q src num side1 side2 → ∀ (L : ℝ), 0 ≤ L → (∀ u, energy M (globalMult C.prob u) ≤ L ^ 2 * energy M u) →
      ∀ (q : Sdirk ℝ) (T : Type) (s : T) (waves : ℝ → List (State ι ℝ)) (u : Nat → ℝ → State ι ℝ),
      (∀ n ≤ 4, ∀ t f d i, HasDerivAt (fun s => u n s f d i) (u (n + 1) t f d i) t) →
      (∀ t f d i, u 1 t f d i = globalMult C.prob (u 0 t) f d i -
        applyBlocks (sourceBlocks C C.tfFaces) (sourceField C (waves t)) f d i) →
      ∀ (dt last K : ℝ), 0 ≤ last → last ≤ dt → dt * L ≤ 1 / 4 → ∀ (n : Nat) (t : ℝ),
      (∀ j m, j + m = 5 → 2 ≤ m → ∀ r, t - 11 / 10 * dt ≤ r → r ≤ t + n * dt + last + 11 / 10 * dt →
        size M ((globalMult C.prob)^[j] (u m r)) ≤ K) →
      ∃ y, run q .rk4 (explicitTdo fun t v => sourceRhsPar Q src (fun r => (waves t).map fun w => scatter (G := G) num w r) v)
          (List.replicate n dt ++ [last]) (scatter num (u 0 t)) t s = some (scatter num y, t + n * dt + last, s) ∧
        size M (y - u 0 (t + n * dt + last)) ≤ (n * dt + last) * (dt ^ 4 * K + c / 100000000) := by
  obtain ⟨c, hc0, hc⟩ := C128_ranks C M h ha hs hM
  refine ⟨c, hc0, ?_⟩
  intro R _ N G Q src num side1 side2 S L hL0 hL q T s waves u hu he dt last K h0 hl hdt n t hK
  obtain ⟨y, y', r, r', hy⟩ := hc S L hL0 hL q T s waves dt last h0 hl hdt n (u 0 t) t
  obtain ⟨z, rz, hz⟩ := waves_all C M h ha hs hM L hL0 hL q s waves u hu he dt last K h0 hl hdt n t hK
  rw [r] at rz
  obtain rfl : y = z := by
    have := Option.some.inj rz
    exact (Prod.mk.inj this).1
  refine ⟨y', r', ?_⟩
  have hD := sform_diss h ha hs hM
  have t1 := nrm_add_le hD.symm hD.nonneg ((-1 : ℝ) • (y - y')) (y - u 0 (t + n * dt + last))
  have e1 : (-1 : ℝ) • (y - y') + (y - u 0 (t + n * dt + last)) = y' - u 0 (t + n * dt + last) := by module
  rw [e1, nrm_smul] at t1
  simp only [abs_neg, abs_one, one_mul] at t1
  have t2 : nrm (sform M) (y' - u 0 (t + n * dt + last)) ≤
      size M (y - y') + size M (y - u 0 (t + n * dt + last)) := t1
  refine t2.trans ?_
  linarith

/-- **C122** with plane waves, on any number of ranks: runs of explicit steps of `dt` converge with order four, up to what the
neglected waves add, to any exact solution of the semi-discrete equations with all the waves.  The constant `C` depends on
the solution and the final time only, `c` on the case only. -/
theorem C122_converges_waves (C : Case ι ℝ) (M : FieldT → Matrix ι ι ℝ) (h : Op.Spec.Good C.prob M) (ha : 0 ≤ C.alpha)
    (hs : ∀ v : ι → ℝ, 0 ≤ v ⬝ᵥ C.Msig.mulVec v) (hM : ∀ u, u ≠ 0 → 0 < energy M u) :
    ∃ c, 0 ≤ c ∧ ∀ (waves : ℝ → List (State ι ℝ)), (∀ f d i, ContDiff ℝ 4 fun t => sourceField C (waves t) f d i) →
      ∀ (u : ℝ → State ι ℝ), (∀ t f d i, HasDerivAt (fun s => u s f d i) (globalMult C.prob (u t) f d i -
        applyBlocks (sourceBlocks C C.tfFaces) (sourceField C (waves t)) f d i) t) → ∀ (t T : ℝ),
      ∃ K, 0 ≤ K ∧ ∀ {R : Type} [DecidableEq R] {N G : R → Nat} {Q : (r : R) → RankCase (N r) (G r) ℝ}
        {src : (r : R) → Fin (G r) → (q : R) × Fin (N q)} {num : (r : R) → Fin (N r + G r) → ι} {side1 side2 : Face ι ℝ → R},
        SplitCase C Q src num side1 side2 → ∀ (L : ℝ), 0 ≤ L → (∀ u, energy M (globalMult C.prob u) ≤ L ^ 2 * energy M u) →
        ∀ (q : Sdirk ℝ) (S : Type) (s : S) (dt last : ℝ) (n : Nat), 0 ≤ last → last ≤ dt → dt ≤ 1 → dt * L ≤ 1 / 4 →
        n * dt + last ≤ T →
        ∃ y, run q .rk4 (explicitTdo fun t v => sourceRhsPar Q src (fun r => (waves t).map fun w => scatter (G := G) num w r) v)
            (List.replicate n dt ++ [last]) (scatter num (u t)) t s = some (scatter num y, t + n * dt + last, s) ∧
          size M (y - u (t + n * dt + last)) ≤ T * (K * dt ^ 4 + c / 100000000) := by
  obtain ⟨c, hc0, hc⟩ := C122_waves C M h ha hs hM
  refine ⟨c, hc0, ?_⟩
  intro waves hw u hu t T
  obtain ⟨sr, hsr⟩ : ∃ sr : ℝ → State ι ℝ, sr = fun t => -applyL (sourceBlocks C C.tfFaces) (sourceField C (waves t)) := ⟨_, rfl⟩
  have h1 : ContDiff ℝ (4 : ℕ) fun t => sourceField C (waves t) :=
    contDiff_pi.2 fun f => contDiff_pi.2 fun d => contDiff_pi.2 fun i => hw f d i
  have hsm : ContDiff ℝ (4 : ℕ) sr := by
    rw [hsr]
    exact ((LinearMap.toContinuousLinearMap (applyL (sourceBlocks C C.tfFaces))).contDiff.comp h1).neg
  have hd : ∀ t, HasDerivAt u (opL C.prob (u t) + sr t) t := by
    intro t
    refine hasDerivAt_pi.2 fun f => hasDerivAt_pi.2 fun d => hasDerivAt_pi.2 fun i => ?_
    rw [hsr]
    exact (hu t f d i).congr_deriv (sub_eq_add_neg _ _)
  obtain ⟨K, K0, hK⟩ := derivs_bounded (sform M) hsm hd (t - 2) (t + T + 2)
  refine ⟨K, K0, ?_⟩
  intro R _ N G Q src num side1 side2 S L hL0 hL q S' s dt last n h0 hl hdt1 hdt hT
  obtain ⟨y, r, hy⟩ := hc S L hL0 hL q S' s waves (derivs (opL C.prob) sr u)
    (fun n hn t f d i => hasDerivAt_pi.1 (hasDerivAt_pi.1 (hasDerivAt_pi.1 (derivs_smooth hsm hd n (by omega) t) f) d) i)
    (fun t f d i => by
      simp only [derivs, iteratedDeriv_zero]
      rw [hsr]
      exact (sub_eq_add_neg _ _).symm)
    dt last K h0 hl hdt n t
    (fun j m hj hm r h1 h2 => by
      have := hK j m hj r (by linarith) (by linarith)
      rw [opL_pow] at this
      exact this)
  refine ⟨y, r, hy.trans ?_⟩
  have : 0 ≤ dt ^ 4 * K + c / 100000000 := by have := h0.trans hl; positivity
  nlinarith

end

/-- A wave that oscillates in time on the line of four elements meets the hypotheses on waves and solution. -/
example : ∃ u : ℝ → State (Fin 4) ℝ, u 0 = 0 ∧
    (∀ f d i, ContDiff ℝ 4 fun t => sourceField (rowCase (K := ℝ)) [fun _ _ _ => Real.sin t] f d i) ∧
    ∀ t f d i, HasDerivAt (fun s => u s f d i) (globalMult (rowCase (K := ℝ)).prob (u t) f d i -
      applyBlocks (sourceBlocks rowCase (rowCase (K := ℝ)).tfFaces) (sourceField rowCase [fun _ _ _ => Real.sin t]) f d i) t := by
  have hc : ∀ f d i, ContDiff ℝ 4 fun t => sourceField (rowCase (K := ℝ)) [fun _ _ _ => Real.sin t] f d i := by
    intro f d i
    by_cases h : i ∈ (rowCase (K := ℝ)).sub
    · simp only [sourceField, if_pos h, List.foldl_cons, List.foldl_nil, zero_add]
      exact Real.contDiff_sin.mul contDiff_const
    · simp only [sourceField, if_neg h]
      exact contDiff_const
  have hcont : Continuous fun t => -applyL (sourceBlocks rowCase (rowCase (K := ℝ)).tfFaces)
      (sourceField rowCase [fun _ _ _ => Real.sin t]) := by
    refine ((LinearMap.toContinuousLinearMap (applyL _)).continuous.comp ?_).neg
    exact continuous_pi fun f => continuous_pi fun d => continuous_pi fun i => (hc f d i).continuous
  obtain ⟨u, h0, hu⟩ := exists_solution (opL (rowCase (K := ℝ)).prob) hcont 0 0
  refine ⟨u, h0, hc, fun t f d i => ?_⟩
  have := hasDerivAt_pi.1 (hasDerivAt_pi.1 (hasDerivAt_pi.1 (hu t) f) d) i
  exact this.congr_deriv (sub_eq_add_neg _ _).symm

end Dgtd.Par
