/-
C120–C123: automatic step and losses, integrators and operators, convergence, damping.
-/
import Verif.Props.TimeInt
import Verif.Props.TimeStep
import Mathlib.Analysis.Calculus.Deriv.Prod
import Mathlib.Analysis.SpecialFunctions.ExpDeriv

set_option linter.unusedSectionVars false

namespace Dgtd.TimeInt

open Op Op.Spec Implicit Spec

/-! ### A concrete problem -/

/-- An end of a line of one element of order zero. -/
def rodFace (n : ℝ) : Op.Face (Fin 1) ℝ :=
  { ndof1 := 1, ndof2 := 0, dofs := fun _ => 0
    pts := [{ w := 1, W := 1, nor := [n], sh1 := fun _ => 1, sh2 := fun _ => 0 }] }

/-- One element of order zero and of size one between magnetic walls, of conductivity `s`. -/
def rod (alpha s : ℝ) : Prob (Fin 1) ℝ :=
  { dim := 1, alpha := alpha, interior := [], bdr := [(some .PMC, rodFace (-1)), (some .PMC, rodFace 1)]
    Minv := fun _ => 1, Msig := s • 1, D := fun _ => 0 }

/-- The field with `E_y = a`. -/
def ey (a : ℝ) : State (Fin 1) ℝ := fun f d _ => if f = .E ∧ d = 1 then a else 0

theorem rod_rate (alpha s a : ℝ) : globalMult (rod alpha s) (ey a) = ey (-s * a) := by
  funext f d i
  have : i = 0 := Subsingleton.elim _ _
  subst this
  cases f <;> fin_cases d <;>
  simp [globalMult, applyBlocks, globalBlocks, rod, hasIntBdr, directionalBlocks, oneBlocks, zeroBlocks, twoBlocks,
    conductiveBlocks, fields, dirs, dirsUpTo, derivativeSub, zeroNormalSub, oneNormalSub, twoNormalSub, plainFaces, bdrFaces,
    assemble, addSub, rodFace, zeroNormal, oneNormal, twoNormal, zeroNormalPt, oneNormalPt, twoNormalPt, buildFaceMatrix,
    addAt, normalTerm, penaltyCoeff, fluxCoeff, bdrCoeff, ey, altField, sgn, FieldT.idx, Matrix.mulVec, dotProduct,
    List.range_succ]

theorem rod_good (alpha s : ℝ) : Op.Spec.Good (rod alpha s) (fun _ => 1) := by
  refine ⟨by simp [rod], ?_, ?_, ?_, ?_, ?_, ?_, ?_⟩
  · intro f hf p hp
    simp only [allFaces, rod, List.map_cons, List.map_nil, List.nil_append,
      List.mem_cons, List.not_mem_nil, or_false] at hf
    rcases hf with rfl | rfl <;> simp only [rodFace, List.mem_singleton] at hp <;> subst hp <;>
      constructor <;> simp [normalTerm, rod]
  · intro d hd v u
    have : d = 0 := by apply Fin.ext; simp [rod] at hd; simp [hd]
    subst this
    simp [allFaces, rod, faceBoundary, rodFace, tr1, tr2, normalTerm]
  · intro q hq; simp [rod] at hq; rcases hq with rfl | rfl <;> simp
  · intro q hq; simp [rod] at hq; rcases hq with rfl | rfl <;> simp [rodFace]
  · intro q hq; simp [rod] at hq
  · intro f; simp [rod]
  · intro f; simp

theorem rod_energy (u : State (Fin 1) ℝ) :
    energy (fun _ => 1) u = 1 / 2 * ∑ d : Dir, (u .E d 0 ^ 2 + u .H d 0 ^ 2) := by
  simp [energy, dotProduct, sq]

theorem rod_pos (u : State (Fin 1) ℝ) (h : u ≠ 0) : 0 < energy (fun _ => (1 : Matrix (Fin 1) (Fin 1) ℝ)) u := by
  rw [rod_energy]
  obtain ⟨f, d, hfd⟩ : ∃ f d, u f d 0 ≠ 0 := by
    by_contra hc
    push Not at hc
    apply h
    funext f d i
    rw [Subsingleton.elim i 0]
    exact hc f d
  have : 0 < ∑ d : Dir, (u .E d 0 ^ 2 + u .H d 0 ^ 2) := by
    apply Finset.sum_pos' (fun d _ => by positivity)
    refine ⟨d, Finset.mem_univ d, ?_⟩
    cases f <;> positivity
  linarith

theorem rod_cond (alpha s : ℝ) (hs : 0 ≤ s) (v : Fin 1 → ℝ) : 0 ≤ v ⬝ᵥ (rod alpha s).Msig.mulVec v := by
  simp only [rod, Matrix.smul_mulVec, Matrix.one_mulVec, dotProduct_smul, smul_eq_mul]
  apply mul_nonneg hs
  exact Finset.sum_nonneg fun i _ => mul_self_nonneg _

theorem ey_energy (a : ℝ) : energy (fun _ => 1) (ey a) = a ^ 2 / 2 := by
  rw [rod_energy]
  simp [ey]
  ring

theorem ey_smul (c a : ℝ) : c • flat (ey a) = flat (ey (c * a)) := by
  funext s
  simp [flat, ey]

theorem ey_add (a b : ℝ) : flat (ey a) + flat (ey b) = flat (ey (a + b)) := by
  funext s
  simp only [flat, ey, Pi.add_apply]
  split <;> simp

theorem exists_ideal33 : ∃ q, Ideal33 q := by
  have hc : ContinuousOn (fun a : ℝ => a ^ 3 - 3 * a ^ 2 + 3 / 2 * a - 1 / 6) (Set.Icc 0.43586 0.43587) := by fun_prop
  have := intermediate_value_Icc' (by norm_num : (0.43586 : ℝ) ≤ 0.43587) hc
  obtain ⟨a, ha, h0⟩ := this (show (0 : ℝ) ∈ Set.Icc _ _ by constructor <;> norm_num)
  exact ⟨⟨a, -(6 * a ^ 2 - 16 * a + 1) / 4, (1 + a) / 2⟩, h0, ha.1, ha.2, rfl, rfl⟩

/-- The constants written in the library are the exact ones, to twenty-three digits. -/
theorem C118_constants (q : Sdirk ℝ) (h : Ideal33 q) : |q.a - 0.435866521508458999416019| ≤ 1e-24 ∧
    |q.b - 1.20849664917601007033648| ≤ 1e-23 ∧ |q.c - 0.717933260754229499708010| ≤ 1e-24 := by
  obtain ⟨d, hd⟩ : ∃ d : ℝ, d = 0.435866521508458999416019 := ⟨_, rfl⟩
  have f : (q.a - d) * (3 * (q.a + d) - 3 / 2 - (q.a ^ 2 + q.a * d + d ^ 2)) = d ^ 3 - 3 * d ^ 2 + 3 / 2 * d - 1 / 6 := by
    linear_combination -h.root
  have fd : |d ^ 3 - 3 * d ^ 2 + 3 / 2 * d - 1 / 6| ≤ 0.4e-24 := by
    rw [hd, abs_le]
    constructor <;> norm_num
  have g : 0.5 ≤ 3 * (q.a + d) - 3 / 2 - (q.a ^ 2 + q.a * d + d ^ 2) := by
    have := h.lo
    have := h.hi
    rw [hd]
    nlinarith
  obtain ⟨k, hk⟩ : ∃ k, k = 3 * (q.a + d) - 3 / 2 - (q.a ^ 2 + q.a * d + d ^ 2) := ⟨_, rfl⟩
  rw [← hk] at f g
  have ha : |q.a - d| ≤ 0.8e-24 := by
    rw [← f, abs_mul, abs_of_pos (by linarith : 0 < k)] at fd
    nlinarith [abs_nonneg (q.a - d)]
  rw [abs_le] at ha
  refine ⟨?_, ?_, ?_⟩
  · rw [← hd, abs_le]
    constructor <;> linarith [ha.1, ha.2]
  · rw [h.b_eq, abs_le]
    obtain ⟨e, he⟩ : ∃ e, e = q.a - d := ⟨_, rfl⟩
    rw [← he] at ha
    have : q.a = d + e := by rw [he]; ring
    rw [this, hd]
    constructor <;> nlinarith [ha.1, ha.2]
  · rw [h.c_eq, abs_le]
    rw [hd] at ha
    constructor <;> linarith [ha.1, ha.2]

/-! ### C120 -/

/-- A step of the explicit integrator on the decaying field. -/
theorem rod_rk4 (alpha s : ℝ) (A : Matrix (Slot (Fin 1)) (Slot (Fin 1)) ℝ)
    (hA : ∀ u, A.mulVec (flat u) = flat (globalMult (rod alpha s) u)) (a t dt : ℝ) :
    (rk4 (globalTdo A fun _ => 0) (flat (ey a)) t dt).1 =
      flat (ey ((1 - s * dt + (s * dt) ^ 2 / 2 - (s * dt) ^ 3 / 6 + (s * dt) ^ 4 / 24) * a)) := by
  simp only [rk4, globalTdo, add_zero, hA, rod_rate, ey_smul, ey_add]
  congr 2
  ring

/-- **C120**, violated: the automatic step looks at the mesh and not at the losses.  On a line of one element of order
zero and size one it is one; with conductivity four, every field of which dies out, the explicit integrator multiplies
the energy by twenty-five at each step. -/
theorem C120_violated (lobatto : Nat → List ℝ) (q : Sdirk ℝ) : ∃ (m : TimeStep.Setup) (o : TimeStep.Options),
    TimeStep.Spec.Valid o ∧ TimeStep.Spec.Usable1 m ∧ o.timeStep = 0 ∧ assignOde o.odeType = .ok .rk4 ∧
    TimeStep.construct (TimeStep.estimateTimeStep lobatto m) o 0 = .ok (1, 0) ∧
    Op.Spec.Good (rod 1 4) (fun _ => 1) ∧
    (∀ u : State (Fin 1) ℝ, energyRate (fun _ => 1) u (globalMult (rod 1 4) u) ≤ 0) ∧
    ∀ (A : Matrix (Slot (Fin 1)) (Slot (Fin 1)) ℝ), (∀ u, A.mulVec (flat u) = flat (globalMult (rod 1 4) u)) →
      ∀ (n : Nat) (a : ℝ), ∃ y, run q .rk4 (globalTdo A fun _ => 0) (List.replicate n 1) (flat (ey a)) 0 fresh =
        some (flat y, (n : ℝ), fresh) ∧ energy (fun _ => 1) y = 25 ^ n * energy (fun _ => 1) (ey a) := by
  refine ⟨⟨1, [⟨.segment, 1, 1, [], [], [1 / 2]⟩], []⟩, ⟨0, 2, 1, 0, .global, 0⟩, ⟨by simp, by simp, by simp⟩, ?_, rfl, rfl,
    ?_, rod_good 1 4, ?_, ?_⟩
  · intro e he
    simp only [List.mem_singleton] at he
    subst he
    exact .inl ⟨rfl, one_pos⟩
  · have hd : (1 : ℝ) ≤ TimeStep.dblMax := by
      unfold TimeStep.dblMax
      have h1 : (1 : ℝ) ≤ 2 ^ 1023 := one_le_pow₀ (by norm_num)
      generalize (2 : ℝ) ^ 1023 = p at h1 ⊢
      linarith
    have hv : TimeStep.checkOptions ⟨0, 2, 1, 0, .global, 0⟩ = .ok () :=
      (TimeStep.check_iff _).2 ⟨by simp, by simp, by simp⟩
    have hm : TimeStep.minDistance [⟨.segment, 1, 1, [], [], [1 / 2]⟩] = 1 := by
      simp only [TimeStep.minDistance, TimeStep.minOf, TimeStep.elemDistances, List.flatMap_cons, List.flatMap_nil,
        List.append_nil, List.length_singleton, if_true, List.foldl_cons, List.foldl_nil]
      exact min_eq_right hd
    simp only [TimeStep.construct, hv, TimeStep.estimateTimeStep, hm, TimeStep.assignOde]
    simp [bind, Except.bind, pure, Except.pure]
  · exact C01_energy_never_grows _ _ (rod_good 1 4) (by norm_num [rod]) (rod_cond 1 4 (by norm_num))
  · intro A hA n a
    have gen : ∀ (n : Nat) (a t : ℝ), run q .rk4 (globalTdo A fun _ => 0) (List.replicate n 1) (flat (ey a)) t fresh =
        some (flat (ey (5 ^ n * a)), t + n, fresh) := by
      intro n
      induction n with
      | zero => intro a t; simp [run]
      | succ n ih =>
        intro a t
        simp only [List.replicate_succ, run, step, Option.bind_eq_bind, Option.bind_some]
        rw [rod_rk4 1 4 A hA, show (rk4 (globalTdo A fun _ => 0) (flat (ey a)) t 1).2 = t + 1 from rfl, ih]
        rw [show 5 ^ n * ((1 - 4 * 1 + (4 * 1) ^ 2 / 2 - (4 * 1) ^ 3 / 6 + (4 * 1) ^ 4 / 24) * a) = 5 ^ (n + 1) * a by ring,
          show t + 1 + (n : ℝ) = t + ((n + 1 : Nat) : ℝ) by push_cast; ring]
    refine ⟨ey (5 ^ n * a), ?_, ?_⟩
    · rw [gen, zero_add]
    · rw [ey_energy, ey_energy, mul_pow, ← pow_mul, mul_comm n 2, pow_mul]
      norm_num
      ring

/-! ### C121 -/

/-- The integrators of the options are those of the solver. -/
theorem C121_accepted (n : Nat) : (∃ o, assignOde n = .ok o) ↔ TimeStep.assignOde n = .ok n := by
  unfold TimeStep.assignOde
  by_cases h : n ≤ 6
  · rw [if_pos h]
    constructor
    · exact fun _ => rfl
    · intro _
      interval_cases n <;> exact ⟨_, rfl⟩
  · rw [if_neg h]
    constructor
    · rintro ⟨o, ho⟩
      obtain ⟨k, rfl⟩ : ∃ k, n = k + 7 := ⟨n - 7, by omega⟩
      simp [assignOde] at ho
    · simp

/-- The seven numbers choose the integrators they are documented to choose. -/
theorem C121_numbers (n : Nat) (o : Ode) : assignOde n = .ok o ↔ n = number o := by
  constructor
  · intro hm
    have h6 : n ≤ 6 := by
      by_contra hc
      obtain ⟨k, rfl⟩ : ∃ k, n = k + 7 := ⟨n - 7, by omega⟩
      simp [assignOde] at hm
    interval_cases n <;> simp only [assignOde, Except.ok.injEq] at hm <;> subst hm <;> rfl
  · rintro rfl
    cases o <;> rfl

section
variable {ι : Type} [Fintype ι] [DecidableEq ι]

/-- **C121**, violated: the element-by-element and the nodal operator accept the implicit integrators, and stop at the
first step. -/
theorem C121_violated (q : Sdirk ℝ) (op : Config.EvolOp) (hop : op ≠ .global) (n : Nat) (h1 : 1 ≤ n) (h6 : n ≤ 6) :
    (∃ o : TimeStep.Options, o.op = op ∧ o.odeType = n ∧ TimeStep.Spec.Valid o ∧
      ∀ estimate, TimeStep.construct estimate o 0 = .ok (o.timeStep, n)) ∧
    ∃ o, assignOde n = .ok o ∧ ∀ (A : Matrix ι ι ℝ) (src : ℝ → ι → ℝ) (dt : ℝ) (dts : List ℝ) (x : ι → ℝ) (t : ℝ)
      (s : Cache ℝ ι), run q o (evolTdo op A src) (dt :: dts) x t s = none := by
  constructor
  · refine ⟨⟨1, 2, 1, n, op, 0⟩, rfl, rfl, ⟨by simp, by simp, by simp⟩, fun estimate => ?_⟩
    have hv : TimeStep.checkOptions ⟨1, 2, 1, n, op, 0⟩ = .ok () :=
      (TimeStep.check_iff _).2 ⟨by simp, by simp, by simp⟩
    simp [TimeStep.construct, hv, TimeStep.assignOde, h6, bind, Except.bind, pure, Except.pure]
  · have hn : ∀ (A : Matrix ι ι ℝ) (src : ℝ → ι → ℝ) (t dt : ℝ) (x : ι → ℝ) (s : Cache ℝ ι),
        (evolTdo op A src).implicitSolve t dt x s = none := by
      intro A src t dt x s
      cases op with
      | global => exact absurd rfl hop
      | maxwell => rfl
      | hesthaven => rfl
    interval_cases n <;> exact ⟨_, rfl, fun A src dt dts x t s => by
      simp [run, step, backwardEuler, trapezoidal, implicitMidpoint, sdirk33, sdirk23, sdirk34, hn]⟩

/-- **C121**, the pairs that work: the explicit integrator with any operator, and every integrator with the global
operator. -/
theorem C121_works_partial (q : Sdirk ℝ) (hq : Ideal33 q) (P : Prob ι ℝ) (M : FieldT → Matrix ι ι ℝ)
    (h : Op.Spec.Good P M) (ha : 0 ≤ P.alpha) (hs : ∀ v : ι → ℝ, 0 ≤ v ⬝ᵥ P.Msig.mulVec v)
    (hM : ∀ u, u ≠ 0 → 0 < energy M u) (A : Matrix (Slot ι) (Slot ι) ℝ)
    (hA : ∀ u : State ι ℝ, A.mulVec (flat u) = flat (globalMult P u)) (src : ℝ → Slot ι → ℝ) (op : Config.EvolOp) (n : Nat)
    (hn : n ≤ 6) (hw : op = .global ∨ n = 0) (dts : List ℝ) (hdts : ∀ dt ∈ dts, 0 ≤ dt) (u : State ι ℝ) (t : ℝ) :
    ∃ o y c, assignOde n = .ok o ∧ run q o (evolTdo op A src) dts (flat u) t fresh = some (flat y, t + dts.sum, c) := by
  by_cases h0 : n = 0
  · subst h0
    refine ⟨.rk4, ?_⟩
    have gen : ∀ (dts : List ℝ) (x : Slot ι → ℝ) (t : ℝ), ∃ y,
        run q .rk4 (evolTdo op A src) dts x t fresh = some (y, t + dts.sum, fresh) := by
      intro dts
      induction dts with
      | nil => intro x t; exact ⟨x, by simp [run]⟩
      | cons dt rest ih =>
        intro x t
        obtain ⟨y, e⟩ := ih (rk4 (evolTdo op A src) x t dt).1 (t + dt)
        refine ⟨y, ?_⟩
        simp only [run, step, Option.bind_eq_bind, Option.bind_some, List.sum_cons, ← add_assoc]
        exact e
    obtain ⟨y, e⟩ := gen dts (flat u) t
    exact ⟨unflat y, fresh, rfl, e⟩
  · obtain rfl : op = .global := hw.resolve_right h0
    obtain ⟨o, ho⟩ := (C121_accepted n).2 (by simp [TimeStep.assignOde, hn])
    have hrk : o ≠ .rk4 := by
      rintro rfl
      interval_cases n <;> simp_all [assignOde]
    obtain ⟨y, -, c, -, e, -⟩ := C118_implicit_stable q hq P M h ha hs hM A hA src o hrk dts hdts u u t
    exact ⟨o, y, c, ho, e⟩

/-! ### C122 -/

theorem flat_exact {P : Prob ι ℝ} {A : Matrix (Slot ι) (Slot ι) ℝ}
    (hA : ∀ u : State ι ℝ, A.mulVec (flat u) = flat (globalMult P u)) {u : ℝ → State ι ℝ}
    (hu : ∀ t f d i, HasDerivAt (fun s => u s f d i) (globalMult P (u t) f d i) t) :
    Exact A.mulVecLin (fun t => flat (u t)) := by
  intro t
  rw [Matrix.mulVecLin_apply, hA]
  exact hasDerivAt_pi.2 fun s => hu t s.1 s.2.1 s.2.2

theorem flat_pow {P : Prob ι ℝ} {A : Matrix (Slot ι) (Slot ι) ℝ}
    (hA : ∀ u : State ι ℝ, A.mulVec (flat u) = flat (globalMult P u)) (n : Nat) (u : State ι ℝ) :
    (A.mulVecLin ^ n) (flat u) = flat ((globalMult P)^[n] u) := by
  induction n generalizing u with
  | zero => rfl
  | succ n ih =>
    rw [pow_succ, Module.End.mul_apply, Matrix.mulVecLin_apply, hA, ih, Function.iterate_succ, Function.comp_apply]

/-- **C122**: with an implicit integrator of order `k` and steps of at most `H`, of any sizes, the fields at the end differ
from the exact solution of the semi-discrete equations by at most the elapsed time times `H^k` times a constant of the
initial fields. -/
theorem C122_implicit (q : Sdirk ℝ) (hq : Ideal33 q) (P : Prob ι ℝ) (M : FieldT → Matrix ι ι ℝ)
    (h : Op.Spec.Good P M) (ha : 0 ≤ P.alpha) (hs : ∀ v : ι → ℝ, 0 ≤ v ⬝ᵥ P.Msig.mulVec v)
    (hM : ∀ u, u ≠ 0 → 0 < energy M u) (A : Matrix (Slot ι) (Slot ι) ℝ)
    (hA : ∀ u : State ι ℝ, A.mulVec (flat u) = flat (globalMult P u)) (u : ℝ → State ι ℝ)
    (hu : ∀ t f d i, HasDerivAt (fun s => u s f d i) (globalMult P (u t) f d i) t)
    (o : Ode) (ho : o ≠ .rk4) (H : ℝ) (dts : List ℝ) (hdts : ∀ dt ∈ dts, 0 ≤ dt ∧ dt ≤ H) (t : ℝ) :
    ∃ y c, run q o (globalTdo A fun _ => 0) dts (flat (u t)) t fresh = some (flat y, t + dts.sum, c) ∧
      size M (y - u (t + dts.sum)) ≤ 2 * dts.sum * H ^ order o * size M ((globalMult P)^[order o + 1] (u t)) := by
  obtain ⟨y, r, e, -, le⟩ := run_converges hq (global_solves h ha hs hM hA fun _ => 0) (eform_diss h ha hs hM hA) ho
    (flat_exact hA hu) H (size M ((globalMult P)^[order o + 1] (u t))) dts (flat (u t)) t fresh hdts
    (by rw [flat_pow hA]; exact le_of_eq rfl) (good_fresh A)
  refine ⟨unflat y, r, e, ?_⟩
  have z : nrm (eform M) (flat (u t) - flat (u t)) = 0 := by
    rw [sub_self, nrm]
    simp
  simp only [z, zero_add] at le
  exact le

/-- Affine solutions satisfy the equations of a step exactly. -/
theorem affine_rel {V : Type} [AddCommGroup V] [Module ℝ V] (q : Sdirk ℝ) {o : Ode} (ho : o ≠ .rk4) (A : V →ₗ[ℝ] V) (a v : V)
    (t dt : ℝ) : Rel q o (dt • A) (dt • (v - A (a + (stageTimes q o t dt).1 • v)))
      (dt • (v - A (a + (stageTimes q o t dt).2.1 • v))) (dt • (v - A (a + (stageTimes q o t dt).2.2 • v)))
      (a + t • v) (a + (t + dt) • v) := by
  have key : ∀ r : ℝ, (dt • A) (a + r • v) + dt • (v - A (a + r • v)) = dt • v := by
    intro r
    rw [LinearMap.smul_apply]
    module
  cases o with
  | rk4 => exact absurd rfl ho
  | backwardEuler =>
    simp only [Rel, stageTimes, key]
    module
  | trapezoidal =>
    simp only [Rel, stageTimes, key]
    module
  | implicitMidpoint =>
    refine ⟨a + (t + dt / 2) • v, ?_, ?_⟩ <;> simp only [stageTimes, key] <;> module
  | sdirk33 =>
    refine ⟨a + (t + q.a * dt) • v, a + (t + q.c * dt) • v, ?_, ?_, ?_⟩ <;> simp only [stageTimes, key] <;> module
  | sdirk23 =>
    refine ⟨a + (t + gamma23 * dt) • v, a + (t + (1 - gamma23) * dt) • v, ?_, ?_, ?_⟩ <;> simp only [stageTimes, key] <;>
      module
  | sdirk34 =>
    refine ⟨a + (t + a34 * dt) • v, a + (t + 1 / 2 * dt) • v, a + (t + (1 - a34) * dt) • v, ?_, ?_, ?_, ?_⟩ <;>
      simp only [stageTimes, key] <;> module

/-- **C122** with sources: each integrator samples the sources at the right times, in that fields growing linearly in time
under the sources they need are reproduced exactly, whatever the steps. -/
theorem C122_affine (q : Sdirk ℝ) (hq : Ideal33 q) (P : Prob ι ℝ) (M : FieldT → Matrix ι ι ℝ)
    (h : Op.Spec.Good P M) (ha : 0 ≤ P.alpha) (hs : ∀ v : ι → ℝ, 0 ≤ v ⬝ᵥ P.Msig.mulVec v)
    (hM : ∀ u, u ≠ 0 → 0 < energy M u) (A : Matrix (Slot ι) (Slot ι) ℝ)
    (hA : ∀ u : State ι ℝ, A.mulVec (flat u) = flat (globalMult P u)) (a v : State ι ℝ) (src : ℝ → State ι ℝ)
    (hsrc : ∀ t, v = globalMult P (a + t • v) + src t) (o : Ode) (dts : List ℝ) (hdts : ∀ dt ∈ dts, 0 ≤ dt) (t : ℝ) :
    ∃ c, run q o (globalTdo A fun t => flat (src t)) dts (flat (a + t • v)) t fresh =
      some (flat (a + (t + dts.sum) • v), t + dts.sum, c) := by
  have hsrc' : ∀ t, flat (src t) = flat v - A.mulVecLin (flat a + t • flat v) := by
    intro t
    rw [Matrix.mulVecLin_apply, show flat a + t • flat v = flat (a + t • v) from rfl, hA]
    have e : flat v = flat (globalMult P (a + t • v)) + flat (src t) := congrArg flat (hsrc t)
    rw [eq_sub_iff_add_eq, add_comm]
    exact e.symm
  have hS := global_solves h ha hs hM hA (fun t => flat (src t))
  have hD := eform_diss h ha hs hM hA
  have gen : ∀ (dts : List ℝ) (t : ℝ) (c : Cache ℝ (Slot ι)), (∀ dt ∈ dts, 0 ≤ dt) → Implicit.Good A c →
      ∃ r, run q o (globalTdo A fun t => flat (src t)) dts (flat a + t • flat v) t c =
        some (flat a + (t + dts.sum) • flat v, t + dts.sum, r) := by
    intro dts
    induction dts with
    | nil => intro t c _ _; exact ⟨c, by simp [run]⟩
    | cons dt rest ih =>
      intro t c hp hc
      have hdt := hp dt List.mem_cons_self
      obtain ⟨c1, hc1, e⟩ : ∃ c1, Implicit.Good A c1 ∧ step q o (globalTdo A fun t => flat (src t)) (flat a + t • flat v) t dt c =
          some (flat a + (t + dt) • flat v, t + dt, c1) := by
        by_cases ho : o = .rk4
        · subst ho
          refine ⟨c, hc, ?_⟩
          have hm : ∀ r x, (globalTdo A fun t => flat (src t)).mult r x =
              A.mulVecLin x + (flat v - A.mulVecLin (flat a + r • flat v)) := by
            intro r x
            rw [← hsrc']
            rfl
          simp only [step]
          congr 2
          simp only [rk4, hm, map_add, map_smul, map_sub]
          module
        · obtain ⟨y, c1, e, i, r⟩ := step_rel hq hS ho (flat a + t • flat v) t dt hdt c hc
          simp only [hsrc'] at r
          have r' := affine_rel q ho A.mulVecLin (flat a) (flat v) t dt
          have le := (r.sub r').energy hq (hD.smul hdt)
          rw [sub_self] at le
          simp only [map_zero] at le
          have z : y - (flat a + (t + dt) • flat v) = 0 := by
            by_contra hne
            have := hM (unflat (y - (flat a + (t + dt) • flat v))) (by
              intro h0
              exact hne (by rw [← flat_unflat (y - _), h0]; rfl))
            rw [eform_self] at le
            linarith
          exact ⟨c1, i, by rw [e, sub_eq_zero.1 z]⟩
      obtain ⟨r, f⟩ := ih (t + dt) c1 (fun d hd => hp d (List.mem_cons_of_mem _ hd)) hc1
      exact ⟨r, by simp only [run, e, Option.bind_eq_bind, Option.bind_some, f, List.sum_cons, add_assoc]⟩
  exact gen dts t fresh hdts (good_fresh A)

/-! The explicit integrator. -/

theorem rkPoly_add {V : Type} [AddCommGroup V] [Module ℝ V] (Z : V →ₗ[ℝ] V) (u v : V) :
    rkPoly Z (u + v) = rkPoly Z u + rkPoly Z v := by
  simp only [rkPoly, map_add]
  module

theorem rkPoly_iter_add {V : Type} [AddCommGroup V] [Module ℝ V] (Z : V →ₗ[ℝ] V) (n : Nat) : ∀ u v : V,
    (rkPoly Z)^[n] (u + v) = (rkPoly Z)^[n] u + (rkPoly Z)^[n] v := by
  induction n with
  | zero => intro u v; rfl
  | succ n ih =>
    intro u v
    simp only [Function.iterate_succ, Function.comp_apply, rkPoly_add, ih]

theorem rkPoly_taylor {V : Type} [NormedAddCommGroup V] [NormedSpace ℝ V] [FiniteDimensional ℝ V] (A : V →ₗ[ℝ] V) (dt : ℝ)
    (x : V) : rkPoly (dt • A) x = taylor A 5 dt x := by
  simp only [rkPoly, taylor, Finset.sum_range_succ, Finset.sum_range_zero, LinearMap.smul_apply, map_smul, pow_succ, pow_zero,
    Module.End.mul_apply, Module.End.one_apply, Nat.factorial, one_mul]
  module

theorem rk4_linear {V S : Type} [AddCommGroup V] [Module ℝ V] {F : Tdo V S} {A : V →ₗ[ℝ] V}
    (h : ∀ t x, F.mult t x = A x) (x : V) (t dt : ℝ) : (rk4 F x t dt).1 = rkPoly (dt • A) x := by
  simp only [rk4, rkPoly, h, map_add, map_smul, LinearMap.smul_apply]
  module

theorem nrm_two {V : Type} [AddCommGroup V] [Module ℝ V] {B : V →ₗ[ℝ] V →ₗ[ℝ] ℝ} {u v : V}
    (h : B u u ≤ 2 * B v v) : nrm B u ≤ Real.sqrt 2 * nrm B v := by
  unfold nrm
  rw [← Real.sqrt_mul (by norm_num)]
  exact Real.sqrt_le_sqrt h

theorem run_rk4_converges {V S : Type} [NormedAddCommGroup V] [NormedSpace ℝ V] [FiniteDimensional ℝ V] (q : Sdirk ℝ)
    {F : Tdo V S} {A : V →ₗ[ℝ] V} (h : ∀ t x, F.mult t x = A x) {B : V →ₗ[ℝ] V →ₗ[ℝ] ℝ} (hd : Diss B A) {dt : ℝ}
    (hdt : 0 ≤ dt) (hb : ∀ u, B ((dt • A) u) ((dt • A) u) ≤ 1 / 16 * B u u) {u : ℝ → V} (hu : Exact A u) (K : ℝ) (n : Nat) :
    ∀ (x : V) (t : ℝ) (s : S), nrm B ((A ^ 5) (u t)) ≤ K →
      ∃ y w, run q .rk4 F (List.replicate n dt) x t s = some (y, t + n * dt, s) ∧
        y - u (t + n * dt) = (rkPoly (dt • A))^[n] (x - u t) + w ∧
        nrm B w ≤ Real.sqrt 2 * (n * (dt ^ 5 / 120 * K)) := by
  induction n with
  | zero => intro x t s _; exact ⟨x, 0, by simp [run], by simp, by simp [nrm]⟩
  | succ n ih =>
    intro x t s hK
    have hK' : nrm B ((A ^ 5) (u (t + dt))) ≤ K := (exact_pow_decays hd 5 hu (by linarith : t ≤ t + dt)).trans hK
    obtain ⟨y, w, e, hy, hw⟩ := ih (rk4 F x t dt).1 (t + dt) s hK'
    obtain ⟨d, hdd⟩ : ∃ d, d = rkPoly (dt • A) (u t) - u (t + dt) := ⟨_, rfl⟩
    have ht : t + ((n + 1 : Nat) : ℝ) * dt = t + dt + n * dt := by push_cast; ring
    refine ⟨y, (rkPoly (dt • A))^[n] d + w, ?_, ?_, ?_⟩
    · simp only [List.replicate_succ, run, step, Option.bind_eq_bind, Option.bind_some]
      rw [show (rk4 F x t dt).2 = t + dt from rfl, e, ht]
    · rw [ht, hy, Function.iterate_succ, Function.comp_apply, ← add_assoc, ← rkPoly_iter_add, rk4_linear h]
      congr 2
      rw [hdd]
      have : rkPoly (dt • A) x = rkPoly (dt • A) (x - u t) + rkPoly (dt • A) (u t) := by
        rw [← rkPoly_add, sub_add_cancel]
      rw [this]
      abel
    · have h1 := nrm_two (rkPoly_power (hd.smul hdt) hb n d)
      have h2 : nrm B d ≤ dt ^ 5 / 120 * K := by
        have h3 := exact_taylor hd 5 hu t dt hdt
        rw [← rkPoly_taylor] at h3
        have h4 : nrm B d = nrm B (u (t + dt) - rkPoly (dt • A) (u t)) := by
          rw [hdd, ← neg_sub, nrm, nrm, map_neg, map_neg, LinearMap.neg_apply, neg_neg]
        rw [h4]
        refine h3.trans ?_
        have : ((5 : Nat).factorial : ℝ) = 120 := by norm_num [Nat.factorial]
        rw [this]
        exact mul_le_mul_of_nonneg_left hK (by positivity)
      have h5 := nrm_add_le hd.symm hd.nonneg ((rkPoly (dt • A))^[n] d) w
      have h6 := mul_le_mul_of_nonneg_left h2 (Real.sqrt_nonneg 2)
      push_cast
      nlinarith

/-- **C122** for the explicit integrator within the bound of C119: order four, for any number of equal steps and a
shorter last one. -/
theorem C122_explicit (q : Sdirk ℝ) (P : Prob ι ℝ) (M : FieldT → Matrix ι ι ℝ)
    (h : Op.Spec.Good P M) (ha : 0 ≤ P.alpha) (hs : ∀ v : ι → ℝ, 0 ≤ v ⬝ᵥ P.Msig.mulVec v)
    (hM : ∀ u, u ≠ 0 → 0 < energy M u) (A : Matrix (Slot ι) (Slot ι) ℝ)
    (hA : ∀ u : State ι ℝ, A.mulVec (flat u) = flat (globalMult P u)) (u : ℝ → State ι ℝ)
    (hu : ∀ t f d i, HasDerivAt (fun s => u s f d i) (globalMult P (u t) f d i) t) (L : ℝ) (hL0 : 0 ≤ L)
    (hL : ∀ u : State ι ℝ, energy M (globalMult P u) ≤ L ^ 2 * energy M u) (dt last : ℝ) (h0 : 0 ≤ last) (hl : last ≤ dt)
    (hdt : dt * L ≤ 1 / 4) (n : Nat) (t : ℝ) :
    ∃ y c, run q .rk4 (globalTdo A fun _ => 0) (List.replicate n dt ++ [last]) (flat (u t)) t fresh =
        some (flat y, t + n * dt + last, c) ∧
      size M (y - u (t + n * dt + last)) ≤
        (n * dt + last) * dt ^ 4 * size M ((globalMult P)^[5] (u t)) := by
  have hD := eform_diss h ha hs hM hA
  have hE : ∀ u, 0 ≤ energy M u := fun u => hD.nonneg (flat u)
  have hdt0 : 0 ≤ dt := h0.trans hl
  have hsq : ∀ {d : ℝ}, 0 ≤ d → d ≤ dt → (d * L) ^ 2 ≤ 1 / 16 := by
    intro d hd hd'
    have h1 : d * L ≤ 1 / 4 := (mul_le_mul_of_nonneg_right hd' hL0).trans hdt
    have h2 : 0 ≤ d * L := mul_nonneg hd hL0
    nlinarith
  have hm : ∀ (t : ℝ) (x : Slot ι → ℝ), (globalTdo A fun _ => 0).mult t x = A.mulVecLin x := by
    intro t x
    simp [globalTdo]
  have hex := flat_exact hA hu
  obtain ⟨K, hK⟩ : ∃ K, K = size M ((globalMult P)^[5] (u t)) := ⟨_, rfl⟩
  have hK1 : nrm (eform M) ((A.mulVecLin ^ 5) (flat (u t))) ≤ K := by rw [flat_pow hA, hK]; exact le_of_eq rfl
  have hK0 : 0 ≤ K := (nrm_nonneg _ _).trans hK1
  obtain ⟨y, w, e, hy, hw⟩ := run_rk4_converges q hm hD hdt0 (scaled_bound hA hL hE (hsq hdt0 (le_refl _))) hex K n
    (flat (u t)) t fresh hK1
  have hK2 : nrm (eform M) ((A.mulVecLin ^ 5) (flat (u (t + n * dt)))) ≤ K :=
    (exact_pow_decays hD 5 hex (by nlinarith [mul_nonneg (Nat.cast_nonneg (α := ℝ) n) hdt0] : t ≤ t + n * dt)).trans hK1
  obtain ⟨z, w', e', hz, hw'⟩ := run_rk4_converges q hm hD h0 (scaled_bound hA hL hE (hsq h0 hl)) hex K 1
    y (t + n * dt) (fresh (K := ℝ) (ι := Slot ι)) hK2
  simp only [Nat.cast_one, one_mul, Function.iterate_one] at e' hz hw'
  refine ⟨unflat z, fresh, ?_, ?_⟩
  · rw [run_append, e]
    exact e'
  · rw [← hK]
    have zero : (rkPoly (dt • A.mulVecLin))^[n] (flat (u t) - flat (u t)) = 0 := by
      rw [sub_self]
      have := rkPoly_iter_add (dt • A.mulVecLin) n (0 : Slot ι → ℝ) 0
      simpa using this
    simp only [zero, zero_add] at hy
    have g1 := nrm_two (rk4_once (hD.smul h0) (scaled_bound hA hL hE (hsq h0 hl)) (rkPoly (last • A.mulVecLin))
      (fun _ => rfl) (y - flat (u (t + n * dt))))
    have g2 := nrm_add_le hD.symm hD.nonneg (rkPoly (last • A.mulVecLin) (y - flat (u (t + n * dt)))) w'
    rw [← hz] at g2
    rw [hy] at g1 g2
    have s2 : Real.sqrt 2 * Real.sqrt 2 = 2 := Real.mul_self_sqrt (by norm_num)
    have s1 : Real.sqrt 2 ≤ 2 := by rw [Real.sqrt_le_iff]; norm_num
    have s0 := Real.sqrt_nonneg 2
    have g3 := mul_le_mul_of_nonneg_left hw s0
    have d5 : last ^ 5 ≤ last * dt ^ 4 := by
      rw [pow_succ, mul_comm]
      exact mul_le_mul_of_nonneg_left (pow_le_pow_left₀ h0 hl 4) h0
    have hn : (0 : ℝ) ≤ n := Nat.cast_nonneg n
    have g4 : Real.sqrt 2 * (Real.sqrt 2 * (n * (dt ^ 5 / 120 * K))) = n * dt * dt ^ 4 * K / 60 := by
      rw [← mul_assoc, s2]; ring
    have g5 : Real.sqrt 2 * (last ^ 5 / 120 * K) ≤ last * dt ^ 4 * K / 60 := by
      have : last ^ 5 / 120 * K ≤ last * dt ^ 4 / 120 * K := mul_le_mul_of_nonneg_right (by linarith) hK0
      have p : 0 ≤ last ^ 5 / 120 * K := by positivity
      nlinarith
    have p1 : 0 ≤ n * dt * dt ^ 4 * K := by positivity
    have p2 : 0 ≤ last * dt ^ 4 * K := by positivity
    have : nrm (eform M) (z - flat (u (t + n * dt + last))) ≤ (n * dt + last) * dt ^ 4 * K := by nlinarith
    exact this

/-! ### C123 -/

/-- Remainder of a decaying field after a step of the three-stage scheme. -/
theorem remainder33 {a b c z r1 r2 r3 : ℝ} (hz0 : 0 < z) (la : 0.43 ≤ a) (ua : a ≤ 0.44)
    (hb : b = -(6 * a ^ 2 - 16 * a + 1) / 4) (hc : c = (1 + a) / 2) (e1 : r1 * (1 + a * z) = 1)
    (e2 : r2 * (1 + a * z) = 1 - (c - a) * z * r1)
    (e3 : r3 * (1 + a * z) = 1 - b * z * r1 - (1 - a - b) * z * r2) : |r3| ≤ 6 / z := by
  have hN : r3 * (1 + a * z) ^ 3 = 1 + (3 * a - 1) * z + (2 * a ^ 2 - a + (1 - a - b) * (c - a)) * z ^ 2 := by
    linear_combination (1 + a * z) ^ 2 * e3 - (1 - a - b) * z * (1 + a * z) * e2 -
      (b * z * (1 + a * z) - (1 - a - b) * (c - a) * z ^ 2) * e1
  have b1 : -0.26 ≤ 2 * a ^ 2 - a + (1 - a - b) * (c - a) ∧ 2 * a ^ 2 - a + (1 - a - b) * (c - a) ≤ 0 := by
    rw [hb, hc]
    constructor <;> nlinarith [mul_nonneg (sub_nonneg.2 la) (sub_nonneg.2 ua)]
  obtain ⟨n2, hn2⟩ : ∃ n2, n2 = 2 * a ^ 2 - a + (1 - a - b) * (c - a) := ⟨_, rfl⟩
  rw [← hn2] at hN b1
  have D3 : 0 < (1 + a * z) ^ 3 := by positivity
  have zz : 0 < z * z := by positivity
  have zzz : 0 < z * z * z := by positivity
  have a2 : 0.18 ≤ a ^ 2 := by nlinarith
  have a3 : 0.077 ≤ a ^ 3 := by nlinarith
  have q1 : 0 ≤ (a - 0.43) * z := mul_nonneg (by linarith) hz0.le
  have q2 : 0 ≤ (a ^ 2 - 0.18) * (z * z) := mul_nonneg (by linarith) zz.le
  have q3 : 0 ≤ (a ^ 3 - 0.077) * (z * z * z) := mul_nonneg (by linarith) zzz.le
  have q4 : 0 ≤ (0.44 - a) * (z * z) := mul_nonneg (by linarith) zz.le
  have q5 : 0 ≤ (n2 + 0.26) * (z * z * z) := mul_nonneg (by linarith [b1.1]) zzz.le
  have q6 : 0 ≤ -n2 * (z * z * z) := mul_nonneg (by linarith [b1.2]) zzz.le
  have q7 : 0 ≤ (a - 0.43) * (z * z) := mul_nonneg (by linarith) zz.le
  rw [abs_le, neg_div', div_le_iff₀ hz0, le_div_iff₀ hz0]
  constructor
  · have : 0 ≤ (r3 * z + 6) * (1 + a * z) ^ 3 := by
      have e : (r3 * z + 6) * (1 + a * z) ^ 3 =
          z * (1 + (3 * a - 1) * z + n2 * z ^ 2) + 6 * (1 + a * z) ^ 3 := by linear_combination z * hN
      rw [e]
      nlinarith
    linarith [(mul_nonneg_iff_of_pos_right D3).1 this]
  · have : 0 ≤ (6 - r3 * z) * (1 + a * z) ^ 3 := by
      have e : (6 - r3 * z) * (1 + a * z) ^ 3 =
          6 * (1 + a * z) ^ 3 - z * (1 + (3 * a - 1) * z + n2 * z ^ 2) := by linear_combination -z * hN
      rw [e]
      nlinarith
    linarith [(mul_nonneg_iff_of_pos_right D3).1 this]

/-- The same of the two-stage scheme. -/
theorem remainder23 {a z r1 r2 : ℝ} (hz0 : 0 < z) (l : 0.29 ≤ a) (l2 : a ≤ 0.3) (hq2 : a ^ 2 - 2 * a + 1 / 2 = 0)
    (e1 : r1 * (1 + a * z) = 1) (e2 : r2 * (1 + a * z) = 1 - (1 - 2 * a) * z * r1) :
    |1 - z / 2 * r1 - z / 2 * r2| ≤ 6 / z := by
  obtain ⟨r, hr⟩ : ∃ r, r = 1 - z / 2 * r1 - z / 2 * r2 := ⟨_, rfl⟩
  rw [← hr]
  have hN : r * (1 + a * z) ^ 2 = 1 + (2 * a - 1) * z := by
    rw [hr]
    linear_combination (-(z / 2) * (1 + a * z) + z / 2 * (1 - 2 * a) * z) * e1 - z / 2 * (1 + a * z) * e2 + z ^ 2 * hq2
  have D2 : 0 < (1 + a * z) ^ 2 := by positivity
  have zz : 0 < z * z := by positivity
  have q1 : 0 ≤ (a - 0.29) * z := mul_nonneg (by linarith) hz0.le
  have q2 : 0 ≤ (a - 0.29) * (z * z) := mul_nonneg (by linarith) zz.le
  have q3 : 0 ≤ (0.3 - a) * (z * z) := mul_nonneg (by linarith) zz.le
  have q4 : 0 ≤ (a ^ 2 - 0.0841) * (z * z) := mul_nonneg (by nlinarith) zz.le
  rw [abs_le, neg_div', div_le_iff₀ hz0, le_div_iff₀ hz0]
  constructor
  · have : 0 ≤ (r * z + 6) * (1 + a * z) ^ 2 := by
      have e : (r * z + 6) * (1 + a * z) ^ 2 = z * (1 + (2 * a - 1) * z) + 6 * (1 + a * z) ^ 2 := by
        linear_combination z * hN
      rw [e]
      nlinarith
    linarith [(mul_nonneg_iff_of_pos_right D2).1 this]
  · have : 0 ≤ (6 - r * z) * (1 + a * z) ^ 2 := by
      have e : (6 - r * z) * (1 + a * z) ^ 2 = 6 * (1 + a * z) ^ 2 - z * (1 + (2 * a - 1) * z) := by
        linear_combination -z * hN
      rw [e]
      nlinarith
    linarith [(mul_nonneg_iff_of_pos_right D2).1 this]

/-- **C123**: fields that decay at a rate `lam` (strong conductivity) are almost removed by one step, however large, of
backward Euler, SDIRK33 and SDIRK23: what is left is at most `6 / (lam dt)` of them. -/
theorem C123_damped (q : Sdirk ℝ) (hq : Ideal33 q) (P : Prob ι ℝ) (M : FieldT → Matrix ι ι ℝ)
    (h : Op.Spec.Good P M) (ha : 0 ≤ P.alpha) (hs : ∀ v : ι → ℝ, 0 ≤ v ⬝ᵥ P.Msig.mulVec v)
    (hM : ∀ u, u ≠ 0 → 0 < energy M u) (A : Matrix (Slot ι) (Slot ι) ℝ)
    (hA : ∀ u : State ι ℝ, A.mulVec (flat u) = flat (globalMult P u)) (o : Ode)
    (ho : o = .backwardEuler ∨ o = .sdirk33 ∨ o = .sdirk23) (u : State ι ℝ) (lam : ℝ) (hlam : 0 < lam)
    (he : globalMult P u = fun f d i => -lam * u f d i) (dt : ℝ) (hdt : 0 < dt) (t : ℝ) :
    ∃ y c, run q o (globalTdo A fun _ => 0) [dt] (flat u) t fresh = some (flat y, t + dt, c) ∧
      size M y ≤ 6 / (lam * dt) * size M u := by
  have hS := global_solves h ha hs hM hA (fun _ => 0)
  have hD := (eform_diss h ha hs hM hA).smul hdt.le
  have hrk : o ≠ .rk4 := by rcases ho with rfl | rfl | rfl <;> simp
  obtain ⟨y, c, e, -, r⟩ := step_rel hq hS hrk (flat u) t dt hdt.le fresh (good_fresh A)
  simp only [smul_zero] at r
  obtain ⟨z, hz⟩ : ∃ z, z = lam * dt := ⟨_, rfl⟩
  have hz0 : 0 < z := by rw [hz]; positivity
  have hZ : ∀ c : ℝ, (dt • A.mulVecLin) (c • flat u) = (-z * c) • flat u := by
    intro c
    have : flat (globalMult P u) = (-lam) • flat u := by rw [he]; rfl
    rw [map_smul, LinearMap.smul_apply, Matrix.mulVecLin_apply, hA, this, hz]
    module
  have fin : ∀ R : ℝ, |R| ≤ 6 / z → Rel q o (dt • A.mulVecLin) 0 0 0 (flat u) (R • flat u) →
      size M (unflat y) ≤ 6 / (lam * dt) * size M u := by
    intro R hR hrel
    have h1 := (r.sub hrel).energy hq hD
    rw [sub_self] at h1
    simp only [map_zero] at h1
    have h2 : nrm (eform M) (y - R • flat u) = 0 := by
      unfold nrm
      rw [le_antisymm h1 (hD.nonneg _), Real.sqrt_zero]
    have h3 := nrm_add_le hD.symm hD.nonneg (y - R • flat u) (R • flat u)
    rw [sub_add_cancel, h2, zero_add, nrm_smul] at h3
    have h4 := mul_le_mul_of_nonneg_right hR (nrm_nonneg (eform M) (flat u))
    rw [← hz]
    exact h3.trans h4
  refine ⟨unflat y, c, ?_, ?_⟩
  · simp only [run, e, Option.bind_eq_bind, Option.bind_some]
    rfl
  rcases ho with rfl | rfl | rfl
  · apply fin (1 / (1 + z))
    · rw [abs_of_pos (by positivity), div_le_div_iff₀ (by positivity) hz0]
      linarith
    · simp only [Rel, hZ, add_zero]
      rw [show flat u + (-z * (1 / (1 + z))) • flat u = (1 + (-z * (1 / (1 + z)))) • flat u by module]
      congr 1
      field_simp
      ring
  · obtain ⟨a, haq⟩ : ∃ a, a = q.a := ⟨_, rfl⟩
    have i := is33 hq
    have la : 0.43 ≤ a := by rw [haq]; linarith [hq.lo]
    have ua : a ≤ 0.44 := by rw [haq]; linarith [hq.hi]
    have pa : 0 < 1 + a * z := by positivity
    -- stages
    let r1 := 1 / (1 + a * z)
    let r2 := (1 - (q.c - a) * z * r1) / (1 + a * z)
    let r3 := (1 - q.b * z * r1 - (1 - a - q.b) * z * r2) / (1 + a * z)
    have e1 : r1 * (1 + a * z) = 1 := div_mul_cancel₀ _ pa.ne'
    have e2 : r2 * (1 + a * z) = 1 - (q.c - a) * z * r1 := div_mul_cancel₀ _ pa.ne'
    have e3 : r3 * (1 + a * z) = 1 - q.b * z * r1 - (1 - a - q.b) * z * r2 := div_mul_cancel₀ _ pa.ne'
    apply fin r3
    · exact remainder33 hz0 la ua (by rw [hq.b_eq, haq]) (by rw [hq.c_eq, haq]) e1 e2 e3
    · refine ⟨r1 • flat u, r2 • flat u, ?_, ?_, ?_⟩ <;> simp only [hZ, add_zero, ← haq]
      · linear_combination (norm := module) e1 • flat u
      · linear_combination (norm := module) e2 • flat u
      · linear_combination (norm := module) e3 • flat u
  · have l := gamma23_bounds.1
    have l2 := gamma23_bounds.2
    obtain ⟨a, hag⟩ : ∃ a, a = gamma23 := ⟨_, rfl⟩
    rw [← hag] at l l2
    have hq2 : a ^ 2 - 2 * a + 1 / 2 = 0 := by
      rw [hag, gamma23]
      have : Real.sqrt 2 ^ 2 = 2 := Real.sq_sqrt (by norm_num)
      nlinarith
    have pa : 0 < 1 + a * z := by positivity
    let r1 := 1 / (1 + a * z)
    let r2 := (1 - (1 - 2 * a) * z * r1) / (1 + a * z)
    have e1 : r1 * (1 + a * z) = 1 := div_mul_cancel₀ _ pa.ne'
    have e2 : r2 * (1 + a * z) = 1 - (1 - 2 * a) * z * r1 := div_mul_cancel₀ _ pa.ne'
    apply fin (1 - z / 2 * r1 - z / 2 * r2)
    · exact remainder23 hz0 l l2 hq2 e1 e2
    · refine ⟨r1 • flat u, r2 • flat u, ?_, ?_, ?_⟩ <;> simp only [hZ, add_zero, ← hag]
      · linear_combination (norm := module) e1 • flat u
      · linear_combination (norm := module) e2 • flat u
      · module
end

/-! ### The hypotheses hold for the concrete problem -/

theorem rod_exact (alpha s a : ℝ) (t : ℝ) (f : FieldT) (d : Dir) (i : Fin 1) :
    HasDerivAt (fun r => ey (a * Real.exp (-s * r)) f d i) (globalMult (rod alpha s) (ey (a * Real.exp (-s * t))) f d i) t := by
  rw [rod_rate]
  by_cases h : f = .E ∧ d = 1
  · simp only [ey, if_pos h]
    have h1 : HasDerivAt (fun r : ℝ => -s * r) (-s) t := by simpa using (hasDerivAt_id t).const_mul (-s)
    have h2 := h1.exp.const_mul a
    exact h2.congr_deriv (by ring)
  · simp only [ey, if_neg h]
    exact hasDerivAt_const t 0

example (src : ℝ → Slot (Fin 1) → ℝ) : ∃ q A, Ideal33 q ∧ (∀ u, A.mulVec (flat u) = flat (globalMult (rod 1 4) u)) ∧
    ∃ y y' c c', run q .sdirk34 (globalTdo A src) [1, 3, 1 / 2] (flat (ey 1)) 0 fresh =
        some (flat y, 0 + [1, 3, 1 / 2].sum, c) ∧
      run q .sdirk34 (globalTdo A src) [1, 3, 1 / 2] (flat (ey 2)) 0 fresh = some (flat y', 0 + [1, 3, 1 / 2].sum, c') ∧
      energy (fun _ => 1) (y - y') ≤ energy (fun _ => 1) (ey 1 - ey 2) := by
  obtain ⟨q, hq⟩ := exists_ideal33
  obtain ⟨A, hA⟩ := exists_matrix (rod 1 4)
  exact ⟨q, A, hq, hA, C118_implicit_stable q hq _ _ (rod_good 1 4) (by norm_num [rod]) (rod_cond 1 4 (by norm_num)) rod_pos A hA
    src .sdirk34 (by simp) _ (by intro d hd; simp at hd; rcases hd with rfl | rfl | rfl <;> norm_num) _ _ _⟩

example : ∃ q A, Ideal33 q ∧ (∀ u, A.mulVec (flat u) = flat (globalMult (rod 0 0) u)) ∧
    ∃ y c, run q .trapezoidal (globalTdo A fun _ => 0) [1, 3] (flat (ey 1)) 0 fresh = some (flat y, 0 + [1, 3].sum, c) ∧
      energy (fun _ => 1) y = energy (fun _ => 1) (ey 1) := by
  obtain ⟨q, hq⟩ := exists_ideal33
  obtain ⟨A, hA⟩ := exists_matrix (rod 0 0)
  exact ⟨q, A, hq, hA, C118_conserves q hq _ _ (rod_good 0 0) rfl (by simp [rod])
    ⟨by intro r hr; simp [rod] at hr; rcases hr with rfl | rfl <;> simp, by intro r hr; simp [rod] at hr⟩ rod_pos A hA
    .trapezoidal (.inr rfl) _ (by intro d hd; simp at hd; rcases hd with rfl | rfl <;> norm_num) _ _⟩

example : ∃ (A : Matrix (Slot (Fin 1)) (Slot (Fin 1)) ℝ) (L : ℝ), (∀ u, A.mulVec (flat u) = flat (globalMult (rod 1 4) u)) ∧ 0 ≤ L ∧
    (∀ u : State (Fin 1) ℝ, energy (fun _ => 1) (globalMult (rod 1 4) u) ≤ L ^ 2 * energy (fun _ => 1) u) ∧
    ∃ dt : ℝ, 0 < dt ∧ dt * L ≤ 1 / 4 := by
  obtain ⟨A, hA⟩ := exists_matrix (rod 1 4)
  obtain ⟨L, h0, hL⟩ := C119_bounded (rod 1 4) (fun _ => 1) rod_pos
  refine ⟨A, L, hA, h0, hL, 1 / (4 * (L + 1)), by positivity, ?_⟩
  rw [div_mul_eq_mul_div, one_mul, div_le_iff₀ (by positivity)]
  linarith

example : ∃ q A, Ideal33 q ∧ (∀ u, A.mulVec (flat u) = flat (globalMult (rod 1 4) u)) ∧
    ∃ y c, run q .sdirk33 (globalTdo A fun _ => 0) [1 / 10, 1 / 20] (flat (ey (1 * Real.exp (-4 * 0)))) 0 fresh =
        some (flat y, 0 + [1 / 10, 1 / 20].sum, c) ∧
      size (fun _ => 1) (y - ey (1 * Real.exp (-4 * (0 + [1 / 10, 1 / 20].sum)))) ≤
        2 * [1 / 10, 1 / 20].sum * (1 / 10) ^ 3 *
          size (fun _ => 1) ((globalMult (rod 1 4))^[4] (ey (1 * Real.exp (-4 * 0)))) := by
  obtain ⟨q, hq⟩ := exists_ideal33
  obtain ⟨A, hA⟩ := exists_matrix (rod 1 4)
  exact ⟨q, A, hq, hA, C122_implicit q hq _ _ (rod_good 1 4) (by norm_num [rod]) (rod_cond 1 4 (by norm_num)) rod_pos A hA
    (fun t => ey (1 * Real.exp (-4 * t))) (rod_exact 1 4 1) .sdirk33 (by simp) (1 / 10) _
    (by intro d hd; simp at hd; rcases hd with rfl | rfl <;> norm_num) 0⟩

example : ∃ q A, Ideal33 q ∧ (∀ u, A.mulVec (flat u) = flat (globalMult (rod 1 4) u)) ∧
    ∃ c, run q .sdirk34 (globalTdo A fun t => flat (ey 1 - globalMult (rod 1 4) (ey 2 + t • ey 1))) [1, 1 / 2]
      (flat (ey 2 + (0 : ℝ) • ey 1)) 0 fresh = some (flat (ey 2 + (0 + [1, 1 / 2].sum : ℝ) • ey 1), 0 + [1, 1 / 2].sum, c) := by
  obtain ⟨q, hq⟩ := exists_ideal33
  obtain ⟨A, hA⟩ := exists_matrix (rod 1 4)
  exact ⟨q, A, hq, hA, C122_affine q hq _ _ (rod_good 1 4) (by norm_num [rod]) (rod_cond 1 4 (by norm_num)) rod_pos A hA
    (ey 2) (ey 1) _ (fun t => by abel) .sdirk34 _
    (by intro d hd; simp at hd; rcases hd with rfl | rfl <;> norm_num) 0⟩

example : ∃ q A, Ideal33 q ∧ (∀ u, A.mulVec (flat u) = flat (globalMult (rod 1 1000) u)) ∧
    ∃ y c, run q .sdirk23 (globalTdo A fun _ => 0) [1] (flat (ey 1)) 0 fresh = some (flat y, 0 + 1, c) ∧
      size (fun _ => 1) y ≤ 6 / (1000 * 1) * size (fun _ => 1) (ey 1) := by
  obtain ⟨q, hq⟩ := exists_ideal33
  obtain ⟨A, hA⟩ := exists_matrix (rod 1 1000)
  exact ⟨q, A, hq, hA, C123_damped q hq _ _ (rod_good 1 1000) (by norm_num [rod]) (rod_cond 1 1000 (by norm_num)) rod_pos A hA
    .sdirk23 (by simp) (ey 1) 1000 (by norm_num) (by rw [rod_rate]; funext f d i; simp [ey]) 1 one_pos 0⟩

end Dgtd.TimeInt
