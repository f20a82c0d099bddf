/-
C159: the implicit solves of large problems.
-/
import Verif.Lemmas.GmresRun
import Verif.Lemmas.GmresLine
import Verif.Spec.OpFrame

set_option linter.unusedSectionVars false

namespace Dgtd.Gmres

open Matrix
open Dgtd.Op Dgtd.Op.Spec Dgtd.Implicit Dgtd.TimeInt Dgtd.TimeInt.Spec Spec

variable {ι : Type} [Fintype ι] [DecidableEq ι]

/-- The operator with its systems solved iteratively, carrying what the integrator's vector `k` holds from one solve to the next.
(src/evolution/GlobalEvolution.cpp:628-1088, 1176-1231) -/
noncomputable def iterativeTdo {κ : Type} [Fintype κ] [DecidableEq κ] (A : Matrix κ κ ℝ) (src : ℝ → κ → ℝ) : Tdo (κ → ℝ) (κ → ℝ) where
  mult := fun t x => A *ᵥ x + src t
  implicitSolve := fun t dt x k0 =>
    let k := Classical.choose (iterates_exists (1 - dt • A) (A *ᵥ x + src t) (relTol * len (res (1 - dt • A) (A *ᵥ x + src t) k0)) maxIter k0)
    some (k, k)

/-- It is an operator as the run theorem asks for. -/
theorem iterativeTdo_iterative {κ : Type} [Fintype κ] [DecidableEq κ] (A : Matrix κ κ ℝ) (src : ℝ → κ → ℝ) : Iterative (iterativeTdo A src) A src where
  mult := fun _ _ => rfl
  solve := fun t dt x k0 => ⟨k0, _, _, rfl,
    Classical.choose_spec (iterates_exists (1 - dt • A) (A *ᵥ x + src t) (relTol * len (res (1 - dt • A) (A *ᵥ x + src t) k0)) maxIter k0)⟩

section
variable {P : Prob ι ℝ} {M : FieldT → Matrix ι ι ℝ} (h : Passive P M) {A : Matrix (Slot ι) (Slot ι) ℝ}
  (hA : ∀ u : State ι ℝ, A *ᵥ flat u = flat (globalMult P u))
include h hA

/-- **C159**: whatever the step, the sources, the fields and what the vector held before, the solve ends, in one way only. -/
theorem C159_outcome (src : Slot ι → ℝ) {dt : ℝ} (hdt : 0 ≤ dt) (x k0 : Slot ι → ℝ) : ∃! k, iterativeSolve A src dt x k0 k := by
  obtain ⟨k, hk⟩ := iterates_exists (1 - dt • A) (A *ᵥ x + src) (relTol * len (res (1 - dt • A) (A *ᵥ x + src) k0)) maxIter k0
  refine ⟨k, hk, fun k' hk' => iterates_unique (fun v hv => ?_) hk' hk⟩
  have hu := C64_always_solvable P M h.good h.alpha h.sig h.pos A hA dt hdt
  have := congrArg ((1 - dt • A)⁻¹ *ᵥ ·) hv
  simpa only [mulVec_mulVec, nonsing_inv_mul _ hu, one_mulVec, mulVec_zero] using this

/-- **C159**: the answer of the iterative solve differs from that of the direct one by no more, in the energy, than what it leaves of
the equation. -/
theorem C159_accuracy (src : Slot ι → ℝ) {dt : ℝ} (hdt : 0 ≤ dt) (x k : Slot ι → ℝ) :
    ∃ k' c, Implicit.implicitSolve A src fresh dt x = some (k', c) ∧
      size M (unflat (k - k')) ≤ size M (unflat (missing (fun y => A *ᵥ y + src) dt x k)) := by
  have hS := global_solves h.good h.alpha h.sig h.pos hA fun _ => src
  have hD := eform_diss h.good h.alpha h.sig h.pos hA
  obtain ⟨k', c, e, -, he⟩ := hS.solve 0 dt x fresh hdt (good_fresh A)
  refine ⟨k', c, by simpa only [globalTdo] using e, ?_⟩
  rw [← nrm_size, ← nrm_size]
  have e2 : k - k' = -missing (fun y => A *ᵥ y + src) dt x k + (1 : ℝ) • ((dt • A.mulVecLin) (k - k')) := by
    have he' : k' = A *ᵥ (x + dt • k') + src := he
    have : missing (fun y => A *ᵥ y + src) dt x k = (A *ᵥ x + dt • A *ᵥ k + src) - k := by
      simp only [missing]; rw [mulVec_add, mulVec_smul]
    rw [this, one_smul, LinearMap.smul_apply, mulVecLin_apply, mulVec_sub]
    rw [mulVec_add, mulVec_smul] at he'
    linear_combination (norm := module) -he'
  have := stage_le (hD.smul hdt) (by norm_num : (0 : ℝ) ≤ 1) e2
  have neg : ∀ v, nrm (eform M) (-v) = nrm (eform M) v := fun v => by simp [nrm]
  rwa [neg] at this

/-- **C159**: with any implicit integrator, any sequence of non-negative steps, any sources and any memory contents the run with
iterative solves completes, and ends within ten times the elapsed time times the largest failure `e` of its solves (measured in the
energy, and accounted by running with `watch`) of the run with direct solves. -/
theorem C159_run (q : Sdirk ℝ) (hq : Ideal33 q) {S : Type} {F : Tdo (Slot ι → ℝ) S} {src : ℝ → Slot ι → ℝ} (hF : Iterative F A src)
    (o : Ode) (ho : o ≠ .rk4) (dts : List ℝ) (hdts : ∀ dt ∈ dts, 0 ≤ dt) (u : State ι ℝ) (t : ℝ) (s : S) :
    ∃ y y' r e c, run q o F dts (flat u) t s = some (flat y, t + dts.sum, r) ∧
      run q o (watch (fun v => size M (unflat v)) F) dts (flat u) t (s, 0) = some (flat y, t + dts.sum, r, e) ∧
      run q o (globalTdo A src) dts (flat u) t fresh = some (flat y', t + dts.sum, c) ∧
      size M (y - y') ≤ 10 * e * dts.sum := by
  have hS := global_solves h.good h.alpha h.sig h.pos hA src
  have hD := eform_diss h.good h.alpha h.sig h.pos hA
  obtain ⟨y, y', r, e, c, e1, e2, e3, -, le⟩ := watch_run hq (A := A.mulVecLin) hF.mult
    (fun t g x s _ => by
      obtain ⟨k0, k, s', e, -⟩ := hF.solve t g x s
      exact ⟨k, s', e⟩) hD hS ho dts (flat u) (flat u) t s 0 fresh (le_refl _) hdts (good_fresh A)
  refine ⟨unflat y, unflat y', r, e, c, e1, e2, e3, ?_⟩
  rw [sub_self, nrm_size] at le
  have z : nrm (eform M) (0 : Slot ι → ℝ) = 0 := by simp [nrm]
  rw [z, zero_add] at le
  exact le

end

/-! ### What the solve leaves of the equation -/

/-- What is left of the equation is the residual the solver watches. -/
theorem missing_res {κ : Type} [Fintype κ] [DecidableEq κ] (A : Matrix κ κ ℝ) (src : κ → ℝ) (dt : ℝ) (x k : κ → ℝ) :
    missing (fun y => A *ᵥ y + src) dt x k = res (1 - dt • A) (A *ᵥ x + src) k := by
  simp only [missing, res]
  rw [mulVec_add, mulVec_smul, sub_mulVec, one_mulVec, smul_mulVec]
  abel

variable {κ : Type} [Fintype κ] [DecidableEq κ]

/-- **C159**: the solve never leaves more of the equation than the vector it was given. -/
theorem C159_never_worse {A : Matrix κ κ ℝ} {src : κ → ℝ} {dt : ℝ} {x k0 k : κ → ℝ} (hk : iterativeSolve A src dt x k0 k) :
    len (missing (fun y => A *ᵥ y + src) dt x k) ≤ len (missing (fun y => A *ᵥ y + src) dt x k0) := by
  rw [missing_res, missing_res]
  exact hk.never_worse

/-- Meeting the tolerance when one Richardson sweep gains five percent. -/
lemma tolerance_met {A : Matrix κ κ ℝ} {src : κ → ℝ} {dt : ℝ} {x k0 k : κ → ℝ} (hk : iterativeSolve A src dt x k0 k) {ω : ℝ}
    (h : ∀ v : κ → ℝ, len (v - ω • ((1 - dt • A) *ᵥ v)) ≤ 0.95 * len v) :
    len (missing (fun y => A *ᵥ y + src) dt x k) ≤ relTol * len (missing (fun y => A *ᵥ y + src) dt x k0) := by
  rw [missing_res, missing_res]
  rcases Iterates.reduced (by norm_num) h hk with h | h
  · exact h
  · refine h.trans (mul_le_mul_of_nonneg_right ?_ (len_nonneg _))
    have e : (0.95 : ℝ) ^ maxIter = ((0.95 : ℝ) ^ 100) ^ 4 := by rw [← pow_mul]; rfl
    rw [e]
    unfold relTol
    norm_num

/-- **C159** for small steps: when the step times the norm of the operator is at most 0.95, the tolerance is met, from any memory
contents. -/
theorem C159_small_step_partial {A : Matrix κ κ ℝ} {n : ℝ} (hn : ∀ v, len (A *ᵥ v) ≤ n * len v) {dt : ℝ} (hdt : 0 ≤ dt) (hs : dt * n ≤ 0.95)
    {src x k0 k : κ → ℝ} (hk : iterativeSolve A src dt x k0 k) :
    len (missing (fun y => A *ᵥ y + src) dt x k) ≤ relTol * len (missing (fun y => A *ᵥ y + src) dt x k0) := by
  refine tolerance_met hk (ω := 1) fun v => ?_
  rw [sub_mulVec, one_mulVec, smul_mulVec, one_smul, sub_sub_cancel, len_smul, abs_of_nonneg hdt]
  calc dt * len (A *ᵥ v) ≤ dt * (n * len v) := mul_le_mul_of_nonneg_left (hn v) hdt
    _ = dt * n * len v := by ring
    _ ≤ _ := mul_le_mul_of_nonneg_right hs (len_nonneg v)

/-- **C159** for operators that lose in the plain norm (as with one value per cell, or an orthonormal basis): three times the inverse
of the norm, more than the largest step Runge–Kutta 4 allows. -/
theorem C159_moderate_step_partial {A : Matrix κ κ ℝ} {n : ℝ} (hn : ∀ v, len (A *ᵥ v) ≤ n * len v) (hd : ∀ v, v ⬝ᵥ (A *ᵥ v) ≤ 0) {dt : ℝ}
    (hdt : 0 ≤ dt) (hs : dt * n ≤ 3) {src x k0 k : κ → ℝ} (hk : iterativeSolve A src dt x k0 k) :
    len (missing (fun y => A *ᵥ y + src) dt x k) ≤ relTol * len (missing (fun y => A *ᵥ y + src) dt x k0) := by
  refine tolerance_met hk (ω := 1 / 10) fun v => len_le_of_sq (mul_nonneg (by norm_num) (len_nonneg v)) ?_
  have e : v - (1 / 10 : ℝ) • ((1 - dt • A) *ᵥ v) = (9 / 10 : ℝ) • v + (1 / 10 * dt) • (A *ᵥ v) := by
    rw [sub_mulVec, one_mulVec, smul_mulVec]
    module
  have key : ((9 / 10 : ℝ) • v + (1 / 10 * dt) • (A *ᵥ v)) ⬝ᵥ ((9 / 10 : ℝ) • v + (1 / 10 * dt) • (A *ᵥ v)) =
      81 / 100 * (v ⬝ᵥ v) + 9 / 50 * (dt * (v ⬝ᵥ (A *ᵥ v))) + 1 / 100 * (dt ^ 2 * ((A *ᵥ v) ⬝ᵥ (A *ᵥ v))) := by
    simp only [add_dotProduct, dotProduct_add, smul_dotProduct, dotProduct_smul, smul_eq_mul, dotProduct_comm (A *ᵥ v) v]
    ring
  rw [e, key, ← len_sq, ← len_sq]
  have h1 : dt * (v ⬝ᵥ (A *ᵥ v)) ≤ 0 := mul_nonpos_of_nonneg_of_nonpos hdt (hd v)
  have h2 : dt * len (A *ᵥ v) ≤ 3 * len v := by
    calc dt * len (A *ᵥ v) ≤ dt * (n * len v) := mul_le_mul_of_nonneg_left (hn v) hdt
      _ = dt * n * len v := by ring
      _ ≤ _ := mul_le_mul_of_nonneg_right hs (len_nonneg v)
  have h3 : (dt * len (A *ᵥ v)) ^ 2 ≤ (3 * len v) ^ 2 := pow_le_pow_left₀ (mul_nonneg hdt (len_nonneg _)) h2 2
  nlinarith [sq_nonneg (len v)]

/-! ### Where the tolerance is not met -/

/-- **C159** fails for large steps: between two conducting walls there is a step and a state from which the solve, started from zero,
spends its iterations without meeting the tolerance, and its answer is used all the same. -/
theorem C159_violated : ∃ (P : Prob (Fin 803) ℝ) (M : FieldT → Matrix (Fin 803) (Fin 803) ℝ), Passive P M ∧
    ∀ A : Matrix (Slot (Fin 803)) (Slot (Fin 803)) ℝ, (∀ u, A *ᵥ flat u = flat (globalMult P u)) →
      ∃ dt x k, 0 < dt ∧ iterativeSolve A 0 dt x 0 k ∧
        relTol * len (missing (fun y => A *ᵥ y + 0) dt x 0) < len (missing (fun y => A *ᵥ y + 0) dt x k) := by
  refine ⟨Line.line 802, fun _ => 1, line_passive 802, fun A hA => ?_⟩
  obtain ⟨dt, x, hdt, hall⟩ := line_stuck hA
  obtain ⟨k, hk, -⟩ := C159_outcome (line_passive 802) hA 0 hdt.le x 0
  refine ⟨dt, x, k, hdt, hk, ?_⟩
  rw [missing_res, missing_res]
  exact hall k hk

/-- **C159** fails for the first step: fields at rest without sources do not stay at rest.  Whatever the step, the rate they are given
grows without bound with what the vector happened to hold, which on the first step of a run is uninitialised memory. -/
theorem C159_memory_fails (q : Sdirk ℝ) {m : ℕ} (hm : 400 ≤ m) {A : Matrix (Slot (Fin (m + 1))) (Slot (Fin (m + 1))) ℝ}
    (hA : ∀ u, A *ᵥ flat u = flat (globalMult (Line.line m) u)) {dt : ℝ} (hdt : 0 < dt) (t C : ℝ) :
    ∃ k0 y r, step q .backwardEuler (iterativeTdo A fun _ => 0) (flat 0) t dt k0 = some (flat y, t + dt, r) ∧ C < energy (fun _ => 1) y := by
  obtain ⟨k0, h0⟩ := line_memory hm hA hdt ((|C| + 1) * 2 / dt)
  obtain ⟨k, hk⟩ : ∃ k, k = Classical.choose (iterates_exists (1 - dt • A) (A *ᵥ flat 0 + 0)
      (relTol * len (res (1 - dt • A) (A *ᵥ flat 0 + 0) k0)) maxIter k0) := ⟨_, rfl⟩
  have hs : iterativeSolve A 0 dt 0 k0 k := by
    rw [hk]
    exact Classical.choose_spec (iterates_exists (1 - dt • A) (A *ᵥ flat 0 + 0) (relTol * len (res (1 - dt • A) (A *ᵥ flat 0 + 0) k0)) maxIter k0)
  have he : (iterativeTdo A fun _ => 0).implicitSolve (t + dt) dt (flat 0) k0 = some (k, k) := by rw [hk]; rfl
  refine ⟨k0, unflat (dt • k), k, ?_, ?_⟩
  · have z : (flat 0 : Slot (Fin (m + 1)) → ℝ) = 0 := rfl
    rw [z] at he ⊢
    simp only [step, backwardEuler, he, Option.bind_eq_bind, Option.bind_some, flat_unflat, zero_add]
  · have h1 := h0 k hs
    rw [div_lt_iff₀ hdt] at h1
    rw [dot_energy, ← len_sq, len_smul, abs_of_pos hdt]
    have h2 := abs_nonneg C
    have h3 := le_abs_self C
    nlinarith

/-! ### The hypotheses hold -/

/-- A run with iterative solves, from any memory contents, between conducting walls. -/
example (q : Sdirk ℝ) (hq : Ideal33 q) (m : ℕ) (u : State (Fin (m + 1)) ℝ) (k0 : Slot (Fin (m + 1)) → ℝ) :
    ∃ A : Matrix (Slot (Fin (m + 1))) (Slot (Fin (m + 1))) ℝ, (∀ u, A *ᵥ flat u = flat (globalMult (Line.line m) u)) ∧
      ∃ y r, run q .sdirk34 (iterativeTdo A fun _ => 0) [1, 2] (flat u) 0 k0 = some (flat y, 3, r) := by
  obtain ⟨A, hA⟩ := exists_matrix (Line.line m)
  obtain ⟨y, _, r, _, _, e, -⟩ := C159_run (line_passive m) hA q hq (iterativeTdo_iterative A fun _ => 0) .sdirk34 (by decide) [1, 2]
    (by simp) u 0 k0
  refine ⟨A, hA, y, r, ?_⟩
  rw [e]
  norm_num

/-- A step that meets the tolerance there. -/
example (m : ℕ) (x k0 : Slot (Fin (m + 1)) → ℝ) : ∃ (A : Matrix (Slot (Fin (m + 1))) (Slot (Fin (m + 1))) ℝ) (dt : ℝ) (k : Slot (Fin (m + 1)) → ℝ),
    0 < dt ∧ iterativeSolve A 0 dt x k0 k ∧ len (missing (fun y => A *ᵥ y + 0) dt x k) ≤ relTol * len (missing (fun y => A *ᵥ y + 0) dt x k0) := by
  obtain ⟨A, hA⟩ := exists_matrix (Line.line m)
  have hn : ∀ v, len (A *ᵥ v) ≤ 4 * (m + 1) * 2 * len v := by
    intro v
    refine len_le_of_sq (by have := len_nonneg v; positivity) ?_
    have := len_le_card (line_entry hA (entry_le_len v))
    rw [len_sq] at this
    refine this.trans ?_
    have : (0 : ℝ) ≤ m := Nat.cast_nonneg m
    have := sq_nonneg (len v)
    rw [show (2 * len v) ^ 2 = 4 * len v ^ 2 by ring, show (4 * ((m : ℝ) + 1) * 2 * len v) ^ 2 = (4 * (m + 1) * 2) ^ 2 * len v ^ 2 by ring, ← mul_assoc]
    exact mul_le_mul_of_nonneg_right (by nlinarith) this
  obtain ⟨dt, hdt⟩ : ∃ dt : ℝ, dt = 3 / (4 * (m + 1) * 2) := ⟨_, rfl⟩
  have hp : 0 < dt := by rw [hdt]; positivity
  obtain ⟨k, hk, -⟩ := C159_outcome (line_passive m) hA 0 hp.le x k0
  refine ⟨A, dt, k, hp, hk, C159_moderate_step_partial hn (line_diss hA) hp.le ?_ hk⟩
  rw [hdt, div_mul_cancel₀]
  positivity

end Dgtd.Gmres
