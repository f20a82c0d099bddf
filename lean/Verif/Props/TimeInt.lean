/-
C118–C123: the time integrators on the evolution operator.
-/
import Verif.Lemmas.TimeIntRel
import Verif.Props.ImplicitEnergy
import Mathlib.Analysis.Normed.Module.FiniteDimension
import Mathlib.Topology.MetricSpace.ProperSpace.Real
import Mathlib.Topology.Order.IntermediateValue
import Mathlib.Topology.Algebra.Polynomial

set_option linter.unusedSectionVars false

namespace Dgtd.TimeInt

open Op Op.Spec Implicit Spec

variable {ι : Type} [Fintype ι] [DecidableEq ι]

/-! ### The energy as a form on flat vectors -/

/-- Half the symmetric form of the energy. -/
noncomputable def eform (M : FieldT → Matrix ι ι ℝ) : (Slot ι → ℝ) →ₗ[ℝ] (Slot ι → ℝ) →ₗ[ℝ] ℝ :=
  LinearMap.mk₂ ℝ (fun x y => 1 / 2 * energyRate M (unflat x) (unflat y))
    (by
      intro x x' y
      simp only [energyRate, ← mul_add, ← Finset.sum_add_distrib]
      congr 1
      apply Finset.sum_congr rfl
      intro d _
      have e : ∀ f, unflat (x + x') f d = unflat x f d + unflat x' f d := fun f => rfl
      rw [e, e, add_dotProduct, add_dotProduct]
      ring)
    (by
      intro c x y
      simp only [energyRate, smul_eq_mul, Finset.mul_sum]
      apply Finset.sum_congr rfl
      intro d _
      have e : ∀ f, unflat (c • x) f d = c • unflat x f d := fun f => rfl
      rw [e, e, smul_dotProduct, smul_dotProduct, smul_eq_mul, smul_eq_mul]
      ring)
    (by
      intro x y y'
      simp only [energyRate, ← mul_add, ← Finset.sum_add_distrib]
      congr 1
      apply Finset.sum_congr rfl
      intro d _
      have e : ∀ f, unflat (y + y') f d = unflat y f d + unflat y' f d := fun f => rfl
      rw [e, e, Matrix.mulVec_add, Matrix.mulVec_add, dotProduct_add, dotProduct_add]
      ring)
    (by
      intro c x y
      simp only [energyRate, smul_eq_mul, Finset.mul_sum]
      apply Finset.sum_congr rfl
      intro d _
      have e : ∀ f, unflat (c • y) f d = c • unflat y f d := fun f => rfl
      rw [e, e, Matrix.mulVec_smul, Matrix.mulVec_smul, dotProduct_smul, dotProduct_smul, smul_eq_mul, smul_eq_mul]
      ring)

theorem eform_apply (M : FieldT → Matrix ι ι ℝ) (x y : Slot ι → ℝ) :
    eform M x y = 1 / 2 * energyRate M (unflat x) (unflat y) := rfl

theorem eform_self (M : FieldT → Matrix ι ι ℝ) (x : Slot ι → ℝ) : eform M x x = energy M (unflat x) := rfl

theorem nrm_size (M : FieldT → Matrix ι ι ℝ) (x : Slot ι → ℝ) : nrm (eform M) x = size M (unflat x) := rfl

theorem eform_symm {M : FieldT → Matrix ι ι ℝ} (h : ∀ f, (M f).transpose = M f) (x y : Slot ι → ℝ) :
    eform M x y = eform M y x := by
  have hsym : ∀ f, ∀ v w : ι → ℝ, v ⬝ᵥ (M f).mulVec w = w ⬝ᵥ (M f).mulVec v := by
    intro f v w
    rw [Matrix.dotProduct_mulVec, ← Matrix.mulVec_transpose, h f, dotProduct_comm]
  simp only [eform_apply, energyRate]
  congr 1
  apply Finset.sum_congr rfl
  intro d _
  rw [hsym .E, hsym .H]

/-- The evolution operator loses in the energy. -/
theorem eform_diss {P : Prob ι ℝ} {M : FieldT → Matrix ι ι ℝ} (h : Op.Spec.Good P M) (ha : 0 ≤ P.alpha)
    (hs : ∀ v : ι → ℝ, 0 ≤ v ⬝ᵥ P.Msig.mulVec v) (hM : ∀ u, u ≠ 0 → 0 < energy M u)
    {A : Matrix (Slot ι) (Slot ι) ℝ} (hA : ∀ u : State ι ℝ, A.mulVec (flat u) = flat (globalMult P u)) :
    Diss (eform M) A.mulVecLin where
  symm := eform_symm h.symm
  nonneg := fun x => by
    rw [eform_self]
    by_cases hx : unflat x = 0
    · rw [hx]; simp [energy]
    · exact (hM _ hx).le
  diss := fun x => by
    rw [eform_apply, Matrix.mulVecLin_apply, ← flat_unflat x, hA]
    have := C01_energy_never_grows P M h ha hs (unflat x)
    exact mul_nonpos_of_nonneg_of_nonpos (by norm_num) this

/-- The implicit solve of the global operator, with its cache, solves. -/
theorem global_solves {P : Prob ι ℝ} {M : FieldT → Matrix ι ι ℝ} (h : Op.Spec.Good P M) (ha : 0 ≤ P.alpha)
    (hs : ∀ v : ι → ℝ, 0 ≤ v ⬝ᵥ P.Msig.mulVec v) (hM : ∀ u, u ≠ 0 → 0 < energy M u)
    {A : Matrix (Slot ι) (Slot ι) ℝ} (hA : ∀ u : State ι ℝ, A.mulVec (flat u) = flat (globalMult P u))
    (src : ℝ → Slot ι → ℝ) : Solves (globalTdo A src) A.mulVecLin src (Implicit.Good A) where
  mult := fun t x => rfl
  solve := fun t g x c hg hc => by
    classical
    have hu := C64_always_solvable P M h ha hs hM A hA g hg
    obtain ⟨g1, hd, hf⟩ := good_step A c hc g
    obtain ⟨J, hJ⟩ : ∃ J, (refactor g (formDense A c)).jInv = some J :=
      Option.ne_none_iff_exists'.1 ((g1.fact hf).2 (by rw [hd]; linarith))
    have hJe := (g1.fact hf).1 J hJ
    rw [hd] at hJe
    have e : Implicit.implicitSolve A (src t) c g x =
        some (J⁻¹.mulVec (A.mulVec x + src t), refactor g (formDense A c)) := by
      unfold Implicit.implicitSolve
      simp only [hJ]
      rw [if_pos (by rw [hJe]; exact hu)]
    refine ⟨J⁻¹.mulVec (A.mulVec x + src t), refactor g (formDense A c), ?_, g1, ?_⟩
    · have e2 : (globalTdo A src).implicitSolve t g x c = Implicit.implicitSolve A (src t) c g x := by
        simp only [globalTdo]
      rw [e2, e]
    · have k : (1 - g • A).mulVec (J⁻¹.mulVec (A.mulVec x + src t)) = A.mulVec x + src t := by
        rw [hJe, Matrix.mulVec_mulVec, Matrix.mul_nonsing_inv _ hu, Matrix.one_mulVec]
      rw [Matrix.sub_mulVec, Matrix.one_mulVec, Matrix.smul_mulVec] at k
      generalize J⁻¹.mulVec (A.mulVec x + src t) = k' at k ⊢
      rw [Matrix.mulVecLin_apply, Matrix.mulVec_add, Matrix.mulVec_smul]
      linear_combination (norm := module) k

/-! ### C118 -/

/-- **C118**: with any implicit integrator, any sequence of non-negative steps, any sources and any initial fields, the
run completes, and the difference of two runs with the same sources has no more energy at the end than at the start.
Without sources, and with the second run started from zero, this is the energy of the run itself. -/
theorem C118_implicit_stable (q : Sdirk ℝ) (hq : Ideal33 q) (P : Prob ι ℝ) (M : FieldT → Matrix ι ι ℝ)
    (h : Op.Spec.Good P M) (ha : 0 ≤ P.alpha) (hs : ∀ v : ι → ℝ, 0 ≤ v ⬝ᵥ P.Msig.mulVec v)
    (hM : ∀ u, u ≠ 0 → 0 < energy M u) (A : Matrix (Slot ι) (Slot ι) ℝ)
    (hA : ∀ u : State ι ℝ, A.mulVec (flat u) = flat (globalMult P u)) (src : ℝ → Slot ι → ℝ)
    (o : Ode) (ho : o ≠ .rk4) (dts : List ℝ) (hdts : ∀ dt ∈ dts, 0 ≤ dt) (u u' : State ι ℝ) (t : ℝ) :
    ∃ y y' c c', run q o (globalTdo A src) dts (flat u) t fresh = some (flat y, t + dts.sum, c) ∧
      run q o (globalTdo A src) dts (flat u') t fresh = some (flat y', t + dts.sum, c') ∧
      energy M (y - y') ≤ energy M (u - u') := by
  obtain ⟨y, y', r, r', e, e', -, -, le⟩ := run_contracts hq (global_solves h ha hs hM hA src)
    (eform_diss h ha hs hM hA) ho dts (flat u) (flat u') t fresh fresh hdts (good_fresh A) (good_fresh A)
  exact ⟨unflat y, unflat y', r, r', e, e', le⟩

/-- **C118** without sources: the energy itself never grows. -/
theorem C118_energy (q : Sdirk ℝ) (hq : Ideal33 q) (P : Prob ι ℝ) (M : FieldT → Matrix ι ι ℝ)
    (h : Op.Spec.Good P M) (ha : 0 ≤ P.alpha) (hs : ∀ v : ι → ℝ, 0 ≤ v ⬝ᵥ P.Msig.mulVec v)
    (hM : ∀ u, u ≠ 0 → 0 < energy M u) (A : Matrix (Slot ι) (Slot ι) ℝ)
    (hA : ∀ u : State ι ℝ, A.mulVec (flat u) = flat (globalMult P u))
    (o : Ode) (ho : o ≠ .rk4) (dts : List ℝ) (hdts : ∀ dt ∈ dts, 0 ≤ dt) (u : State ι ℝ) (t : ℝ) :
    ∃ y c, run q o (globalTdo A fun _ => 0) dts (flat u) t fresh = some (flat y, t + dts.sum, c) ∧
      energy M y ≤ energy M u := by
  have hS := global_solves h ha hs hM hA (fun _ => 0)
  have hD := eform_diss h ha hs hM hA
  have gen : ∀ (dts : List ℝ) (x : Slot ι → ℝ) (t : ℝ) (c : Cache ℝ (Slot ι)), (∀ dt ∈ dts, 0 ≤ dt) → Implicit.Good A c →
      ∃ y r, run q o (globalTdo A fun _ => 0) dts x t c = some (y, t + dts.sum, r) ∧ eform M y y ≤ eform M x x := by
    intro dts
    induction dts with
    | nil => intro x t c _ _; exact ⟨x, c, by simp [run], le_refl _⟩
    | cons dt rest ih =>
      intro x t c hp hc
      have hdt := hp dt List.mem_cons_self
      obtain ⟨y, s1, e, i, r⟩ := step_rel hq hS ho x t dt hdt c hc
      simp only [smul_zero] at r
      obtain ⟨z, r1, f, le⟩ := ih y (t + dt) s1 (fun d hd => hp d (List.mem_cons_of_mem _ hd)) i
      exact ⟨z, r1, by simp only [run, e, Option.bind_eq_bind, Option.bind_some, f, List.sum_cons, add_assoc],
        le.trans (r.energy hq (hD.smul hdt))⟩
  obtain ⟨y, r, e, le⟩ := gen dts (flat u) t fresh hdts (good_fresh A)
  exact ⟨unflat y, r, e, le⟩

/-- **C118** with centred fluxes, no conductivity and no absorbing boundary: the midpoint and the trapezoidal rules keep
the energy exactly. -/
theorem C118_conserves (q : Sdirk ℝ) (hq : Ideal33 q) (P : Prob ι ℝ) (M : FieldT → Matrix ι ι ℝ)
    (h : Op.Spec.Good P M) (ha : P.alpha = 0) (hs : P.Msig = 0)
    (hsma : (∀ r ∈ P.bdr, r.1 ≠ some .SMA) ∧ ∀ r ∈ P.interior, r.1 ≠ some .SMA)
    (hM : ∀ u, u ≠ 0 → 0 < energy M u) (A : Matrix (Slot ι) (Slot ι) ℝ)
    (hA : ∀ u : State ι ℝ, A.mulVec (flat u) = flat (globalMult P u))
    (o : Ode) (ho : o = .implicitMidpoint ∨ o = .trapezoidal) (dts : List ℝ) (hdts : ∀ dt ∈ dts, 0 ≤ dt)
    (u : State ι ℝ) (t : ℝ) :
    ∃ y c, run q o (globalTdo A fun _ => 0) dts (flat u) t fresh = some (flat y, t + dts.sum, c) ∧
      energy M y = energy M u := by
  have ha' := le_of_eq ha.symm
  have hs' : ∀ v : ι → ℝ, 0 ≤ v ⬝ᵥ P.Msig.mulVec v := by intro v; rw [hs]; simp
  have hS := global_solves h ha' hs' hM hA (fun _ => 0)
  have hC : ∀ (dt : ℝ) (x : Slot ι → ℝ), eform M x ((dt • A.mulVecLin) x) = 0 := by
    intro dt x
    rw [LinearMap.smul_apply, map_smul, eform_apply, Matrix.mulVecLin_apply, ← flat_unflat x, hA]
    change dt • (1 / 2 * energyRate M (unflat x) (globalMult P (unflat x))) = 0
    rw [C02_centred_conserves P M h ha hs hsma (unflat x)]
    simp
  have hrk : o ≠ .rk4 := by rcases ho with rfl | rfl <;> simp
  have one : ∀ {dt : ℝ} {x y : Slot ι → ℝ}, Rel q o (dt • A.mulVecLin) 0 0 0 x y → eform M y y = eform M x x := by
    intro dt x y r
    obtain ⟨m, e1, e⟩ : ∃ m, m = x + (1 / 2 : ℝ) • (dt • A.mulVecLin) m ∧ y = x + (dt • A.mulVecLin) m := by
      rcases ho with rfl | rfl
      · obtain ⟨m, e1, e⟩ := r
        simp only [add_zero] at e1 e
        exact ⟨m, e1, e⟩
      · exact trapezoidal_mid r
    rw [midpoint_energy (eform_symm h.symm) e1 e, hC]
    ring
  have gen : ∀ (dts : List ℝ) (x : Slot ι → ℝ) (t : ℝ) (c : Cache ℝ (Slot ι)), (∀ dt ∈ dts, 0 ≤ dt) → Implicit.Good A c →
      ∃ y r, run q o (globalTdo A fun _ => 0) dts x t c = some (y, t + dts.sum, r) ∧ eform M y y = eform M x x := by
    intro dts
    induction dts with
    | nil => intro x t c _ _; exact ⟨x, c, by simp [run], rfl⟩
    | cons dt rest ih =>
      intro x t c hp hc
      obtain ⟨y, s1, e, i, r⟩ := step_rel hq hS hrk x t dt (hp dt List.mem_cons_self) c hc
      simp only [smul_zero] at r
      obtain ⟨z, r1, f, le⟩ := ih y (t + dt) s1 (fun d hd => hp d (List.mem_cons_of_mem _ hd)) i
      exact ⟨z, r1, by simp only [run, e, Option.bind_eq_bind, Option.bind_some, f, List.sum_cons, add_assoc],
        le.trans (one r)⟩
  obtain ⟨y, r, e, le⟩ := gen dts (flat u) t fresh hdts (good_fresh A)
  exact ⟨unflat y, r, e, le⟩

/-- The integrator of the thin-layer solver is the same three-stage scheme. -/
theorem C118_layers (q : Sdirk ℝ) {κ : Type} [Fintype κ] [DecidableEq κ] (A : Matrix κ κ ℝ) (src : ℝ → κ → ℝ)
    (c : Cache ℝ κ) (x : κ → ℝ) (t dt : ℝ) :
    Implicit.sdirk33 q A src c x t dt = step q .sdirk33 (globalTdo A src) x t dt c := by
  simp only [Implicit.sdirk33, step, sdirk33, globalTdo]

/-! ### C119 -/

/-- Polynomial of the classical scheme. -/
noncomputable def rkPoly {V : Type} [AddCommGroup V] [Module ℝ V] (Z : V →ₗ[ℝ] V) (u : V) : V :=
  u + Z u + (1 / 2 : ℝ) • Z (Z u) + (1 / 6 : ℝ) • Z (Z (Z u)) + (1 / 24 : ℝ) • Z (Z (Z (Z u)))

theorem rk4_diff {V S : Type} [AddCommGroup V] [Module ℝ V] {F : Tdo V S} {A : V →ₗ[ℝ] V} {src : ℝ → V}
    (h : ∀ t x, F.mult t x = A x + src t) (x x' : V) (t dt : ℝ) :
    (rk4 F x t dt).1 - (rk4 F x' t dt).1 = rkPoly (dt • A) (x - x') := by
  simp only [rk4, rkPoly, h, map_add, map_sub, map_smul, LinearMap.smul_apply]
  module

theorem rkPoly_powers {V : Type} [AddCommGroup V] [Module ℝ V] {B : V →ₗ[ℝ] V →ₗ[ℝ] ℝ} {Z : V →ₗ[ℝ] V} (h : Diss B Z)
    (hb : ∀ u, B (Z u) (Z u) ≤ 1 / 16 * B u u) : ∀ (n : Nat) (v : V),
      B ((rkPoly Z)^[2 * n] v) ((rkPoly Z)^[2 * n] v) ≤ B v v ∧
      B ((rkPoly Z)^[2 * n + 1] v) ((rkPoly Z)^[2 * n + 1] v) ≤ 2 * B v v := by
  intro n
  induction n with
  | zero => exact fun v => ⟨le_refl _, rk4_once h hb (rkPoly Z) (fun _ => rfl) v⟩
  | succ n ih =>
    intro v
    have two := rk4_twice h hb (rkPoly Z) (fun _ => rfl) v
    obtain ⟨h1, h2⟩ := ih (rkPoly Z (rkPoly Z v))
    rw [show 2 * (n + 1) = 2 * n + 1 + 1 by ring, show 2 * n + 1 + 1 + 1 = (2 * n + 1) + 1 + 1 by ring]
    simp only [Function.iterate_succ, Function.comp_apply] at h1 h2 ⊢
    exact ⟨h1.trans two, h2.trans (by linarith)⟩

theorem rkPoly_power {V : Type} [AddCommGroup V] [Module ℝ V] {B : V →ₗ[ℝ] V →ₗ[ℝ] ℝ} {Z : V →ₗ[ℝ] V} (h : Diss B Z)
    (hb : ∀ u, B (Z u) (Z u) ≤ 1 / 16 * B u u) (n : Nat) (v : V) :
    B ((rkPoly Z)^[n] v) ((rkPoly Z)^[n] v) ≤ 2 * B v v := by
  have := h.nonneg v
  rcases Nat.even_or_odd' n with ⟨k, rfl | rfl⟩
  · linarith [(rkPoly_powers h hb k v).1]
  · exact (rkPoly_powers h hb k v).2

theorem run_rk4_replicate {V S : Type} [AddCommGroup V] [Module ℝ V] (q : Sdirk ℝ) {F : Tdo V S} {A : V →ₗ[ℝ] V}
    {src : ℝ → V} (h : ∀ t x, F.mult t x = A x + src t) (dt : ℝ) (n : Nat) : ∀ (x x' : V) (t : ℝ) (s s' : S),
      ∃ y y', run q .rk4 F (List.replicate n dt) x t s = some (y, t + n * dt, s) ∧
        run q .rk4 F (List.replicate n dt) x' t s' = some (y', t + n * dt, s') ∧
        y - y' = (rkPoly (dt • A))^[n] (x - x') := by
  induction n with
  | zero => intro x x' t s s'; exact ⟨x, x', by simp [run], by simp [run], rfl⟩
  | succ n ih =>
    intro x x' t s s'
    obtain ⟨y, y', e, e', hd⟩ := ih (rk4 F x t dt).1 (rk4 F x' t dt).1 (t + dt) s s'
    refine ⟨y, y', ?_, ?_, ?_⟩
    · simp only [List.replicate_succ, run, step, Option.bind_eq_bind, Option.bind_some]
      rw [show (rk4 F x t dt).2 = t + dt from rfl, e]
      push_cast
      congr 3
      ring
    · simp only [List.replicate_succ, run, step, Option.bind_eq_bind, Option.bind_some]
      rw [show (rk4 F x' t dt).2 = t + dt from rfl, e']
      push_cast
      congr 3
      ring
    · rw [hd, rk4_diff h, Function.iterate_succ, Function.comp_apply]

theorem run_append {V S : Type} [AddCommGroup V] [Module ℝ V] (q : Sdirk ℝ) (o : Ode) (F : Tdo V S) (l l' : List ℝ) :
    ∀ (x : V) (t : ℝ) (s : S), run q o F (l ++ l') x t s =
      (run q o F l x t s).bind fun r => run q o F l' r.1 r.2.1 r.2.2 := by
  induction l with
  | nil => intro x t s; simp [run]
  | cons dt rest ih =>
    intro x t s
    simp only [List.cons_append, run, Option.bind_eq_bind]
    cases step q o F x t dt s with
    | none => rfl
    | some r => simp only [Option.bind_some]; exact ih _ _ _

/-- A definite form bounds every operator. -/
theorem form_bound {V : Type} [NormedAddCommGroup V] [NormedSpace ℝ V] [FiniteDimensional ℝ V] (B : V →ₗ[ℝ] V →ₗ[ℝ] ℝ)
    (hpos : ∀ u, u ≠ 0 → 0 < B u u) (A : V →ₗ[ℝ] V) : ∃ L, 0 ≤ L ∧ ∀ u, B (A u) (A u) ≤ L * B u u := by
  have : ProperSpace V := FiniteDimensional.proper ℝ V
  have hcont : Continuous fun u => B u u := by
    have h1 : Continuous fun u => B.toContinuousBilinearMap u := (B.toContinuousBilinearMap).continuous
    exact h1.clm_apply continuous_id
  obtain ⟨m, hm, hmin⟩ : ∃ m, 0 < m ∧ ∀ u, m * ‖u‖ ^ 2 ≤ B u u := by
    by_cases hne : (Metric.sphere (0 : V) 1).Nonempty
    · obtain ⟨w, hw, hwm⟩ := (isCompact_sphere (0 : V) 1).exists_isMinOn hne hcont.continuousOn
      have hw0 : w ≠ 0 := by
        rintro rfl
        simp at hw
      refine ⟨B w w, hpos w hw0, fun u => ?_⟩
      by_cases hu : u = 0
      · subst hu; simp
      · have hn : ‖u‖ ≠ 0 := norm_ne_zero_iff.2 hu
        have hmem : (‖u‖⁻¹ • u) ∈ Metric.sphere (0 : V) 1 := by
          simp [norm_smul, hn]
        have hle : B w w ≤ B (‖u‖⁻¹ • u) (‖u‖⁻¹ • u) := hwm hmem
        simp only [map_smul, LinearMap.smul_apply, smul_eq_mul] at hle
        have h2 : 0 < ‖u‖ ^ 2 := by positivity
        calc B w w * ‖u‖ ^ 2 ≤ (‖u‖⁻¹ * (‖u‖⁻¹ * B u u)) * ‖u‖ ^ 2 := mul_le_mul_of_nonneg_right hle h2.le
          _ = B u u := by field_simp
    · refine ⟨1, one_pos, fun u => ?_⟩
      by_cases hu : u = 0
      · subst hu; simp
      · exfalso
        apply hne
        exact ⟨‖u‖⁻¹ • u, by simp [norm_smul, norm_ne_zero_iff.2 hu]⟩
  obtain ⟨C, hC⟩ : ∃ C, C = ‖B.toContinuousBilinearMap‖ * ‖LinearMap.toContinuousLinearMap A‖ ^ 2 := ⟨_, rfl⟩
  have hC0 : 0 ≤ C := by rw [hC]; positivity
  refine ⟨C / m, by positivity, fun u => ?_⟩
  have h1 : B (A u) (A u) ≤ C * ‖u‖ ^ 2 := by
    have k1 : ‖B.toContinuousBilinearMap (A u) (A u)‖ ≤ ‖B.toContinuousBilinearMap‖ * ‖A u‖ * ‖A u‖ :=
      (B.toContinuousBilinearMap).le_opNorm₂ (A u) (A u)
    have k2 : ‖A u‖ ≤ ‖LinearMap.toContinuousLinearMap A‖ * ‖u‖ := (LinearMap.toContinuousLinearMap A).le_opNorm u
    have k3 : B (A u) (A u) ≤ ‖B.toContinuousBilinearMap (A u) (A u)‖ := le_abs_self _
    have k4 : ‖A u‖ * ‖A u‖ ≤ (‖LinearMap.toContinuousLinearMap A‖ * ‖u‖) * (‖LinearMap.toContinuousLinearMap A‖ * ‖u‖) :=
      mul_le_mul k2 k2 (norm_nonneg _) (by positivity)
    have k5 := mul_le_mul_of_nonneg_left k4 (norm_nonneg B.toContinuousBilinearMap)
    rw [hC]
    nlinarith
  calc B (A u) (A u) ≤ C * ‖u‖ ^ 2 := h1
    _ = C / m * (m * ‖u‖ ^ 2) := by field_simp
    _ ≤ C / m * B u u := mul_le_mul_of_nonneg_left (hmin u) (by positivity)

/-- **C119**: the rate of the fields is bounded by the fields, on every mesh. -/
theorem C119_bounded (P : Prob ι ℝ) (M : FieldT → Matrix ι ι ℝ) (hM : ∀ u, u ≠ 0 → 0 < energy M u) :
    ∃ L, 0 ≤ L ∧ ∀ u : State ι ℝ, energy M (globalMult P u) ≤ L ^ 2 * energy M u := by
  obtain ⟨A, hA⟩ := exists_matrix P
  obtain ⟨L, hL, hb⟩ := form_bound (eform M) (by
    intro x hx
    rw [eform_self]
    apply hM
    intro h0
    exact hx (by rw [← flat_unflat x, h0]; rfl)) A.mulVecLin
  refine ⟨Real.sqrt L, Real.sqrt_nonneg _, fun u => ?_⟩
  have := hb (flat u)
  rw [Matrix.mulVecLin_apply, hA, eform_self, eform_self] at this
  rw [Real.sq_sqrt hL]
  exact this

/-- The bound in the form of the lemmas. -/
theorem scaled_bound {P : Prob ι ℝ} {M : FieldT → Matrix ι ι ℝ} {A : Matrix (Slot ι) (Slot ι) ℝ}
    (hA : ∀ u : State ι ℝ, A.mulVec (flat u) = flat (globalMult P u)) {L : ℝ}
    (hL : ∀ u : State ι ℝ, energy M (globalMult P u) ≤ L ^ 2 * energy M u) (hE : ∀ u, 0 ≤ energy M u) {dt K : ℝ}
    (hdt : (dt * L) ^ 2 ≤ K) (x : Slot ι → ℝ) :
    eform M ((dt • A.mulVecLin) x) ((dt • A.mulVecLin) x) ≤ K * eform M x x := by
  have e : eform M ((dt • A.mulVecLin) x) ((dt • A.mulVecLin) x) = dt ^ 2 * energy M (globalMult P (unflat x)) := by
    rw [LinearMap.smul_apply, map_smul, map_smul, LinearMap.smul_apply, smul_eq_mul, smul_eq_mul,
      Matrix.mulVecLin_apply, ← flat_unflat x, hA, eform_self, ← mul_assoc, ← sq]
    rfl
  rw [e, eform_self]
  have h1 := mul_le_mul_of_nonneg_left (hL (unflat x)) (sq_nonneg dt)
  have h2 := mul_le_mul_of_nonneg_right hdt (hE (unflat x))
  calc dt ^ 2 * energy M (globalMult P (unflat x)) ≤ dt ^ 2 * (L ^ 2 * energy M (unflat x)) := h1
    _ = (dt * L) ^ 2 * energy M (unflat x) := by ring
    _ ≤ _ := h2

/-- **C119**: the explicit integrator with a step at most a quarter of the inverse of the bound of the operator: any
number of equal steps followed by a shorter last one, with any sources, separates two runs by at most a fixed factor, for
all times. -/
theorem C119_explicit_stable (q : Sdirk ℝ) (P : Prob ι ℝ) (M : FieldT → Matrix ι ι ℝ)
    (h : Op.Spec.Good P M) (ha : 0 ≤ P.alpha) (hs : ∀ v : ι → ℝ, 0 ≤ v ⬝ᵥ P.Msig.mulVec v)
    (hM : ∀ u, u ≠ 0 → 0 < energy M u) (A : Matrix (Slot ι) (Slot ι) ℝ)
    (hA : ∀ u : State ι ℝ, A.mulVec (flat u) = flat (globalMult P u)) (src : ℝ → Slot ι → ℝ) (L : ℝ) (hL0 : 0 ≤ L)
    (hL : ∀ u : State ι ℝ, energy M (globalMult P u) ≤ L ^ 2 * energy M u) (dt last : ℝ) (h0 : 0 ≤ last) (hl : last ≤ dt)
    (hdt : dt * L ≤ 1 / 4) (n : Nat) (u u' : State ι ℝ) (t : ℝ) :
    ∃ y y' c c', run q .rk4 (globalTdo A src) (List.replicate n dt ++ [last]) (flat u) t fresh =
        some (flat y, t + n * dt + last, c) ∧
      run q .rk4 (globalTdo A src) (List.replicate n dt ++ [last]) (flat u') t fresh =
        some (flat y', t + n * dt + last, c') ∧
      energy M (y - y') ≤ 4 * energy M (u - u') := by
  have hD := eform_diss h ha hs hM hA
  have hE : ∀ u, 0 ≤ energy M u := fun u => hD.nonneg (flat u)
  have hsq : ∀ {d : ℝ}, 0 ≤ d → d ≤ dt → (d * L) ^ 2 ≤ 1 / 16 := by
    intro d hd hd'
    have h1 : d * L ≤ 1 / 4 := (mul_le_mul_of_nonneg_right hd' hL0).trans hdt
    have h2 : 0 ≤ d * L := mul_nonneg hd hL0
    nlinarith
  have hdt0 : 0 ≤ dt := h0.trans hl
  obtain ⟨y, y', e, e', hd⟩ := run_rk4_replicate q (F := globalTdo A src) (A := A.mulVecLin) (src := src)
    (fun _ _ => rfl) dt n (flat u) (flat u') t fresh fresh
  refine ⟨unflat (rk4 (globalTdo A src) y (t + n * dt) last).1, unflat (rk4 (globalTdo A src) y' (t + n * dt) last).1,
    fresh, fresh, ?_, ?_, ?_⟩
  · rw [run_append, e]
    rfl
  · rw [run_append, e']
    rfl
  · have d1 := rk4_diff (F := globalTdo A src) (A := A.mulVecLin) (src := src) (fun _ _ => rfl) y y' (t + n * dt) last
    have p1 := rk4_once (hD.smul h0) (scaled_bound hA hL hE (hsq h0 hl)) (rkPoly (last • A.mulVecLin)) (fun _ => rfl)
      (y - y')
    have p2 := rkPoly_power (hD.smul hdt0) (scaled_bound hA hL hE (hsq hdt0 (le_refl _))) n (flat u - flat u')
    rw [← hd] at p2
    rw [← d1] at p1
    have p3 : eform M _ _ ≤ 4 * eform M (flat u - flat u') (flat u - flat u') := p1.trans (by linarith)
    exact p3

/-- **C119**, hence: on every mesh there is a safe step. -/
theorem C119_safe_step (q : Sdirk ℝ) (P : Prob ι ℝ) (M : FieldT → Matrix ι ι ℝ)
    (h : Op.Spec.Good P M) (ha : 0 ≤ P.alpha) (hs : ∀ v : ι → ℝ, 0 ≤ v ⬝ᵥ P.Msig.mulVec v)
    (hM : ∀ u, u ≠ 0 → 0 < energy M u) (A : Matrix (Slot ι) (Slot ι) ℝ)
    (hA : ∀ u : State ι ℝ, A.mulVec (flat u) = flat (globalMult P u)) :
    ∃ dtMax, 0 < dtMax ∧ ∀ (src : ℝ → Slot ι → ℝ) (dt last : ℝ), 0 ≤ last → last ≤ dt → dt ≤ dtMax →
      ∀ (n : Nat) (u u' : State ι ℝ) (t : ℝ), ∃ y y' c c',
        run q .rk4 (globalTdo A src) (List.replicate n dt ++ [last]) (flat u) t fresh =
          some (flat y, t + n * dt + last, c) ∧
        run q .rk4 (globalTdo A src) (List.replicate n dt ++ [last]) (flat u') t fresh =
          some (flat y', t + n * dt + last, c') ∧
        energy M (y - y') ≤ 4 * energy M (u - u') := by
  obtain ⟨L, hL0, hL⟩ := C119_bounded P M hM
  refine ⟨1 / (4 * (L + 1)), by positivity, ?_⟩
  intro src dt last h0 hl hd n u u' t
  apply C119_explicit_stable q P M h ha hs hM A hA src L hL0 hL dt last h0 hl
  have h1 : 0 ≤ dt := h0.trans hl
  have h2 : dt * (4 * (L + 1)) ≤ 1 := (le_div_iff₀ (by positivity)).1 hd
  nlinarith

/-- **C119** for centred fluxes, no conductivity and no absorbing boundary, where nothing is lost: steps up to `√8` over
the bound never increase the energy, whatever their sequence. -/
theorem C119_conservative (q : Sdirk ℝ) (P : Prob ι ℝ) (M : FieldT → Matrix ι ι ℝ)
    (h : Op.Spec.Good P M) (ha : P.alpha = 0) (hs : P.Msig = 0)
    (hsma : (∀ r ∈ P.bdr, r.1 ≠ some .SMA) ∧ ∀ r ∈ P.interior, r.1 ≠ some .SMA)
    (hM : ∀ u, u ≠ 0 → 0 < energy M u) (A : Matrix (Slot ι) (Slot ι) ℝ)
    (hA : ∀ u : State ι ℝ, A.mulVec (flat u) = flat (globalMult P u)) (src : ℝ → Slot ι → ℝ) (L : ℝ)
    (hL : ∀ u : State ι ℝ, energy M (globalMult P u) ≤ L ^ 2 * energy M u) (dts : List ℝ)
    (hdts : ∀ dt ∈ dts, (dt * L) ^ 2 ≤ 8) (u u' : State ι ℝ) (t : ℝ) :
    ∃ y y' c c', run q .rk4 (globalTdo A src) dts (flat u) t fresh = some (flat y, t + dts.sum, c) ∧
      run q .rk4 (globalTdo A src) dts (flat u') t fresh = some (flat y', t + dts.sum, c') ∧
      energy M (y - y') ≤ energy M (u - u') := by
  have hD := eform_diss h (le_of_eq ha.symm) (by intro v; rw [hs]; simp) hM hA
  have hE : ∀ u, 0 ≤ energy M u := fun u => hD.nonneg (flat u)
  have hC : ∀ (dt : ℝ) (x : Slot ι → ℝ), eform M x ((dt • A.mulVecLin) x) = 0 := by
    intro dt x
    rw [LinearMap.smul_apply, map_smul, eform_apply, Matrix.mulVecLin_apply, ← flat_unflat x, hA]
    have := C02_centred_conserves P M h ha hs hsma (unflat x)
    change dt • (1 / 2 * energyRate M (unflat x) (globalMult P (unflat x))) = 0
    rw [this]; simp
  have gen : ∀ (dts : List ℝ) (x x' : Slot ι → ℝ) (t : ℝ) (c c' : Cache ℝ (Slot ι)), (∀ dt ∈ dts, (dt * L) ^ 2 ≤ 8) →
      ∃ y y', run q .rk4 (globalTdo A src) dts x t c = some (y, t + dts.sum, c) ∧
        run q .rk4 (globalTdo A src) dts x' t c' = some (y', t + dts.sum, c') ∧
        eform M (y - y') (y - y') ≤ eform M (x - x') (x - x') := by
    intro dts
    induction dts with
    | nil => intro x x' t c c' _; exact ⟨x, x', by simp [run], by simp [run], le_refl _⟩
    | cons dt rest ih =>
      intro x x' t c c' hp
      obtain ⟨y, y', e, e', le⟩ := ih (rk4 (globalTdo A src) x t dt).1 (rk4 (globalTdo A src) x' t dt).1 (t + dt) c c'
        (fun d hd => hp d (List.mem_cons_of_mem _ hd))
      have d1 := rk4_diff (F := globalTdo A src) (A := A.mulVecLin) (src := src) (fun _ _ => rfl) x x' t dt
      have p1 := (rk4_conservative hD.symm (hC dt) (scaled_bound hA hL hE (hp dt List.mem_cons_self))
        (rkPoly (dt • A.mulVecLin)) (fun _ => rfl) (x - x')).2
      rw [← d1] at p1
      refine ⟨y, y', ?_, ?_, le.trans p1⟩
      · simp only [run, step, Option.bind_eq_bind, Option.bind_some, List.sum_cons, ← add_assoc]
        exact e
      · simp only [run, step, Option.bind_eq_bind, Option.bind_some, List.sum_cons, ← add_assoc]
        exact e'
  obtain ⟨y, y', e, e', le⟩ := gen dts (flat u) (flat u') t fresh fresh hdts
  exact ⟨unflat y, unflat y', fresh, fresh, e, e', le⟩

end Dgtd.TimeInt
