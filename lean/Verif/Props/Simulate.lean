/-
C151: a whole simulation, from the options to the records of the probes, follows Maxwell's equations.
-/
import Verif.Spec.Simulate
import Verif.Lemmas.Simulate
import Verif.Props.Uniform

set_option linter.unusedSectionVars false

namespace Dgtd.Simulate
open Spec Dgtd.TimeLoop.Spec Dgtd.Op Dgtd.Galerkin Dgtd.Galerkin.Spec
open Dgtd.Config (Material Err)
open Dgtd.Implicit (flat Slot Sdirk fresh Cache)
open Dgtd.TimeInt (Tdo Ode globalTdo)
open Dgtd.TimeInt.Spec (order Ideal33)
open MvPolynomial

variable {V S R : Type} [AddCommGroup V] [Module ℝ V]

lemma interval_ne {dt final : ℝ} (hdt : 0 < dt) {ps : List (Probe V R)} (hps : Usable ps) : ∀ p ∈ ps.map (recalculate final dt), p.steps ≠ 0 := by
  intro p hp
  obtain ⟨q, hq, rfl⟩ := List.mem_map.1 hp
  unfold recalculate
  rw [if_neg (not_le.2 hdt)]
  by_cases hs : q.saves > 0
  · rw [if_pos hs]
    simp only [TimeLoop.stepsFromSaves, if_neg (not_le.2 hs)]
    have := Int.le_max_left 1 ((TimeLoop.totalSteps final dt).tdiv q.saves)
    omega
  · rw [if_neg hs]
    rcases hps q hq with h | h
    · exact h
    · exact absurd h hs

/-- **C151**: the solver goes through the fields the integrator gives, whatever the probes are; it stops within `1e-8` steps of the final time,
and the probes hold the readings of the instants that are due. -/
theorem C151_trace (lobatto : Nat → List ℝ) (m : TimeStep.Setup) (o : TimeStep.Options) (dt : ℝ) (ode : Ode) (q : Sdirk ℝ) (F : Tdo V S)
    (x : Nat → V) (c : S) (ps : List (Probe V R)) (hps : Usable ps) (hdt : 0 < dt) (hT : 0 ≤ o.finalTime)
    (ho : TimeStep.construct (TimeStep.estimateTimeStep lobatto m) o 0 = .ok (dt, o.odeType)) (hode : TimeInt.assignOde o.odeType = .ok ode)
    (h : ∀ k ≤ stepCount dt o.finalTime, ∃ c', TimeInt.run q ode F (stepsTo dt o.finalTime k) (x 0) 0 c = some (x k, instant dt o.finalTime k, c')) :
    ∃ s0 s, construct lobatto m o (x 0) c ps = .ok (dt, ode, s0) ∧
      (∀ fuel, stepCount dt o.finalTime ≤ fuel → run q ode F dt o.finalTime fuel s0 = .done s) ∧ Finished dt o.finalTime ps x s := by
  obtain ⟨cs, rfl, hc⟩ := run_of hdt hT x c h
  have hk := interval_ne (final := o.finalTime) hdt hps
  refine ⟨simAt dt o.finalTime x cs (ps.map (recalculate o.finalTime dt)) 0,
    simAt dt o.finalTime x cs (ps.map (recalculate o.finalTime dt)) (stepCount dt o.finalTime), ?_, ?_, rfl, rfl, ?_⟩
  · unfold construct
    rw [ho]
    simp only [bind, Except.bind]
    rw [hode]
    simp only
    rw [updateProbes_zero hT x cs _ hk]
  · intro fuel hf
    exact run_simAt hdt x cs _ hk hc _ 0 fuel (by omega) hf
  · simp [simAt, List.map_map, Function.comp_def]

section
variable {n : Nat} {ι : Type} [Fintype ι] [DecidableEq ι]

lemma construct_given {est : TimeStep.Options → Except Err ℝ} {o : TimeStep.Options} (hv : TimeStep.checkOptions o = .ok ()) (h0 : o.timeStep ≠ 0)
    {ode : Ode} (hode : TimeInt.assignOde o.odeType = .ok ode) : TimeStep.construct est o 0 = .ok (o.timeStep, o.odeType) := by
  have h6 : o.odeType ≤ 6 := by
    by_contra h
    match hk : o.odeType with
    | 0 | 1 | 2 | 3 | 4 | 5 | 6 => omega
    | k + 7 => rw [hk] at hode; simp [TimeInt.assignOde] at hode
  simp [TimeStep.construct, hv, h0, TimeStep.assignOde, h6, bind, Except.bind, pure, Except.pure]

lemma construct_auto {est : TimeStep.Options → Except Err ℝ} {o : TimeStep.Options} (hv : TimeStep.checkOptions o = .ok ()) (h0 : o.timeStep = 0)
    {ode : Ode} (hode : TimeInt.assignOde o.odeType = .ok ode) {dt : ℝ} (he : est o = .ok dt) : TimeStep.construct est o 0 = .ok (dt, o.odeType) := by
  have h6 : o.odeType ≤ 6 := by
    by_contra h
    match hk : o.odeType with
    | 0 | 1 | 2 | 3 | 4 | 5 | 6 => omega
    | k + 7 => rw [hk] at hode; simp [TimeInt.assignOde] at hode
  simp [TimeStep.construct, hv, h0, he, TimeStep.assignOde, h6, bind, Except.bind, pure, Except.pure]

lemma final_nonneg {o : TimeStep.Options} (hv : TimeStep.checkOptions o = .ok ()) : 0 ≤ o.finalTime := by
  by_contra h
  simp [TimeStep.checkOptions, not_le.1 h] at hv

/-- **C151** for the implicit integrators and a time step given by the user: the simulation ends, and everything it has recorded is the reading
of fields that differ from the solution of Maxwell's equations by a constant times `h ^ p + dt ^ order`.  The constant is the same for all
meshes. -/
theorem C151_implicit (n p : Nat) (ρ m0 m1 Λ α : ℝ) (hm0 : 0 < m0) (hm1 : m0 ≤ m1) (hΛ : 0 ≤ Λ) (hα : 0 ≤ α) :
    ∃ K, 0 ≤ K ∧ ∀ (ι : Type) [Fintype ι] [DecidableEq ι] (S : Setup n ι) (ms : List (Int × Material ℝ)) (h B : ℝ) (F : Solution n ι)
      (node : Elem n ι ℝ → Nat → Fin (n + 1) → ℝ) (lobatto : Nat → List ℝ) (m : TimeStep.Setup) (o : TimeStep.Options)
      (ode : Ode), S.alpha = α → Resolves S ms p ρ m0 m1 Λ h B o.finalTime F node → Regular S o.finalTime F p (order ode + 1) B →
      TimeStep.checkOptions o = .ok () → 0 < o.timeStep → 0 < o.finalTime → TimeInt.assignOde o.odeType = .ok ode → ode ≠ .rk4 →
      ∃ P A, S.fem ms = .ok P ∧ (∀ u : State ι ℝ, A.mulVec (flat u) = flat (globalMult P.prob u)) ∧
        ∀ (q : Sdirk ℝ) (_ : Ideal33 q) (x : State ι ℝ) (R : Type) (ps : List (Probe (Slot ι → ℝ) R)), Sampled S node F 0 x → Usable ps →
          ∃ (s0 s : Sim (Slot ι → ℝ) (Cache ℝ (Slot ι)) R) (y : Nat → State ι ℝ), y 0 = x ∧
            construct lobatto m o (flat x) fresh ps = .ok (o.timeStep, ode, s0) ∧
            (∀ fuel, stepCount o.timeStep o.finalTime ≤ fuel → run q ode (globalTdo A fun _ => 0) o.timeStep o.finalTime fuel s0 = .done s) ∧
            Finished o.timeStep o.finalTime ps (fun k => flat (y k)) s ∧
            Tracks S ms node F o.timeStep o.finalTime y fun t => K * (1 + t) * √(volume S) * (B * (h ^ p + o.timeStep ^ order ode)) := by
  obtain ⟨K, hK0, hK⟩ := C150_implicit n p ρ m0 m1 Λ α hm0 hm1 hΛ hα
  refine ⟨K, hK0, fun ι _ _ S ms h B F node lobatto m o ode ha r hb hv h0 hT hode hne => ?_⟩
  obtain ⟨P, A, hP, hA, hr⟩ := hK ι S ms h B o.finalTime F node ha r hT
  refine ⟨P, A, hP, hA, fun q hq x R ps hx hps => ?_⟩
  have one : ∀ k, ∃ y : State ι ℝ, k ≤ stepCount o.timeStep o.finalTime →
      (∃ c, TimeInt.run q ode (globalTdo A fun _ => 0) (stepsTo o.timeStep o.finalTime k) (flat x) 0 fresh =
        some (flat y, instant o.timeStep o.finalTime k, c)) ∧
      ∀ w, Sampled S node F (instant o.timeStep o.finalTime k) w → √(fieldEnergy S ms (y - w)) ≤
        K * (1 + instant o.timeStep o.finalTime k) * √(volume S) * (B * (h ^ p + o.timeStep ^ order ode)) := by
    intro k
    by_cases hk : k ≤ stepCount o.timeStep o.finalTime
    · have hsum := stepsTo_sum (dt := o.timeStep) hT.le k
      obtain ⟨y, c, e, hy⟩ := hr q hq ode hne hb x hx o.timeStep (stepsTo o.timeStep o.finalTime k) (stepsTo_bounds h0 hk) h0.le
        (by rw [hsum]; exact min_le_right _ _)
      rw [hsum] at e hy
      exact ⟨y, fun _ => ⟨⟨c, e⟩, hy⟩⟩
    · exact ⟨x, fun h => absurd h hk⟩
  choose y hy using one
  have hy0 : y 0 = x := by
    obtain ⟨c, e⟩ := (hy 0 (Nat.zero_le _)).1
    simp only [stepsTo, List.range_zero, List.map_nil, TimeInt.run, Option.some.injEq, Prod.mk.injEq] at e
    have := congrArg Implicit.unflat e.1
    exact this.symm
  obtain ⟨s0, s, e1, e2, e3⟩ := C151_trace lobatto m o o.timeStep ode q (globalTdo A fun _ => 0) (fun k => flat (y k)) fresh ps hps h0 hT.le
    (construct_given hv h0.ne' hode) hode (fun k hk => by
      obtain ⟨c, e⟩ := (hy k hk).1
      rw [hy0]; exact ⟨c, e⟩)
  refine ⟨s0, s, y, hy0, ?_, e2, e3, fun k hk w hw => (hy k hk).2 w hw⟩
  rw [← hy0]; exact e1

lemma rk4_zero {V S : Type} [AddCommGroup V] [Module ℝ V] (F : Tdo V S) (x : V) (t : ℝ) : TimeInt.rk4 F x t 0 = (x, t) := by
  simp [TimeInt.rk4]

/-- The explicit integrator, for any time step the solver ends up with. -/
lemma explicit_run {K cfl : ℝ} {S : Setup n ι} {ms : List (Int × Material ℝ)} {h B T : ℝ} {F : Solution n ι} {node : Elem n ι ℝ → Nat → Fin (n + 1) → ℝ}
    {A : Matrix (Slot ι) (Slot ι) ℝ} {p : Nat} (hr : ∀ (q : Sdirk ℝ) (x : State ι ℝ), Sampled S node F 0 x →
      ∀ (dt last : ℝ) (k : Nat), 0 ≤ last → last ≤ dt → dt ≤ cfl * h → k * dt + last ≤ T →
        ∃ y c, TimeInt.run q .rk4 (globalTdo A fun _ => 0) (List.replicate k dt ++ [last]) (flat x) 0 fresh = some (flat y, k * dt + last, c) ∧
          ∀ s, Sampled S node F (k * dt + last) s →
            √(fieldEnergy S ms (y - s)) ≤ K * (1 + (k * dt + last)) * √(volume S) * (B * (h ^ p + dt ^ 4)))
    (lobatto : Nat → List ℝ) (m : TimeStep.Setup) (o : TimeStep.Options) (hT : 0 ≤ T) (hfin : o.finalTime = T) {dt : ℝ} (h0 : 0 < dt)
    (hcfl : dt ≤ cfl * h)
    (ho : TimeStep.construct (TimeStep.estimateTimeStep lobatto m) o 0 = .ok (dt, o.odeType)) (hode : o.odeType = 0)
    (q : Sdirk ℝ) (x : State ι ℝ) (R : Type) (ps : List (Probe (Slot ι → ℝ) R)) (hx : Sampled S node F 0 x) (hps : Usable ps) :
    ∃ (s0 s : Sim (Slot ι → ℝ) (Cache ℝ (Slot ι)) R) (y : Nat → State ι ℝ), y 0 = x ∧
      construct lobatto m o (flat x) fresh ps = .ok (dt, .rk4, s0) ∧
      (∀ fuel, stepCount dt T ≤ fuel → run q .rk4 (globalTdo A fun _ => 0) dt T fuel s0 = .done s) ∧
      Finished dt T ps (fun k => flat (y k)) s ∧
      Tracks S ms node F dt T y fun t => K * (1 + t) * √(volume S) * (B * (h ^ p + dt ^ 4)) := by
  subst hfin
  have one : ∀ k, ∃ y : State ι ℝ, k ≤ stepCount dt o.finalTime →
      (∃ c, TimeInt.run q .rk4 (globalTdo A fun _ => 0) (stepsTo dt o.finalTime k) (flat x) 0 fresh =
        some (flat y, instant dt o.finalTime k, c)) ∧
      ∀ w, Sampled S node F (instant dt o.finalTime k) w → √(fieldEnergy S ms (y - w)) ≤
        K * (1 + instant dt o.finalTime k) * √(volume S) * (B * (h ^ p + dt ^ 4)) := by
    intro k
    by_cases hk : k ≤ stepCount dt o.finalTime
    · cases k with
      | zero =>
        obtain ⟨y, c, e, hy⟩ := hr q x hx dt 0 0 le_rfl h0.le hcfl (by simpa using hT)
        simp only [List.replicate_zero, List.nil_append, TimeInt.run, TimeInt.step, rk4_zero, Option.bind_eq_bind, Option.bind_some,
          Option.some.injEq, Prod.mk.injEq] at e
        have hyx : y = x := (congrArg Implicit.unflat e.1).symm
        subst hyx
        rw [TimeLoop.instant_zero hT]
        refine ⟨y, fun _ => ⟨⟨fresh, rfl⟩, fun w hw => ?_⟩⟩
        simpa using hy w (by simpa using hw)
      | succ k =>
        have hk' : k < stepCount dt o.finalTime := hk
        obtain ⟨l0, l1⟩ := last_bounds h0 hk'
        have hs : (k : ℝ) * dt + (instant dt o.finalTime (k + 1) - k * dt) = instant dt o.finalTime (k + 1) := by ring
        obtain ⟨y, c, e, hy⟩ := hr q x hx dt _ k l0 l1 hcfl (by rw [hs]; exact min_le_right _ _)
        rw [hs] at e hy
        rw [stepsTo_eq h0 hk']
        exact ⟨y, fun _ => ⟨⟨c, e⟩, hy⟩⟩
    · exact ⟨x, fun h => absurd h hk⟩
  choose y hy using one
  have hy0 : y 0 = x := by
    obtain ⟨c, e⟩ := (hy 0 (Nat.zero_le _)).1
    simp only [stepsTo, List.range_zero, List.map_nil, TimeInt.run, Option.some.injEq, Prod.mk.injEq] at e
    have := congrArg Implicit.unflat e.1
    exact this.symm
  obtain ⟨s0, s, e1, e2, e3⟩ := C151_trace lobatto m o dt .rk4 q (globalTdo A fun _ => 0) (fun k => flat (y k)) fresh ps hps h0 hT
    ho (by rw [hode]; rfl) (fun k hk => by
      obtain ⟨c, e⟩ := (hy k hk).1
      rw [hy0]; exact ⟨c, e⟩)
  refine ⟨s0, s, y, hy0, ?_, e2, e3, fun k hk w hw => (hy k hk).2 w hw⟩
  rw [← hy0]; exact e1

/-- **C151** for the explicit integrator and a time step given by the user, which must be at most a fixed multiple of the size of the elements. -/
theorem C151_explicit (n p : Nat) (ρ m0 m1 Λ α : ℝ) (hm0 : 0 < m0) (hm1 : m0 ≤ m1) (hΛ : 0 ≤ Λ) (hα : 0 ≤ α) :
    ∃ K cfl, 0 ≤ K ∧ 0 < cfl ∧ ∀ (ι : Type) [Fintype ι] [DecidableEq ι] (S : Setup n ι) (ms : List (Int × Material ℝ)) (h B : ℝ) (F : Solution n ι)
      (node : Elem n ι ℝ → Nat → Fin (n + 1) → ℝ) (lobatto : Nat → List ℝ) (m : TimeStep.Setup) (o : TimeStep.Options),
      S.alpha = α → Resolves S ms p ρ m0 m1 Λ h B o.finalTime F node → Regular S o.finalTime F p 5 B →
      TimeStep.checkOptions o = .ok () → 0 < o.timeStep → o.timeStep ≤ cfl * h → 0 < o.finalTime → o.odeType = 0 →
      ∃ P A, S.fem ms = .ok P ∧ (∀ u : State ι ℝ, A.mulVec (flat u) = flat (globalMult P.prob u)) ∧
        ∀ (q : Sdirk ℝ) (x : State ι ℝ) (R : Type) (ps : List (Probe (Slot ι → ℝ) R)), Sampled S node F 0 x → Usable ps →
          ∃ (s0 s : Sim (Slot ι → ℝ) (Cache ℝ (Slot ι)) R) (y : Nat → State ι ℝ), y 0 = x ∧
            construct lobatto m o (flat x) fresh ps = .ok (o.timeStep, .rk4, s0) ∧
            (∀ fuel, stepCount o.timeStep o.finalTime ≤ fuel → run q .rk4 (globalTdo A fun _ => 0) o.timeStep o.finalTime fuel s0 = .done s) ∧
            Finished o.timeStep o.finalTime ps (fun k => flat (y k)) s ∧
            Tracks S ms node F o.timeStep o.finalTime y fun t => K * (1 + t) * √(volume S) * (B * (h ^ p + o.timeStep ^ 4)) := by
  obtain ⟨K, cfl, hK0, hc, hK⟩ := C150_explicit n p ρ m0 m1 Λ α hm0 hm1 hΛ hα
  refine ⟨K, cfl, hK0, hc, fun ι _ _ S ms h B F node lobatto m o ha r hb hv h0 hcfl hT hode => ?_⟩
  obtain ⟨P, A, hP, hA, hr⟩ := hK ι S ms h B o.finalTime F node ha r hT hb
  exact ⟨P, A, hP, hA, fun q x R ps hx hps => explicit_run hr lobatto m o hT.le rfl h0 hcfl
    (construct_given hv h0.ne' (ode := .rk4) (by rw [hode]; rfl)) hode q x R ps hx hps⟩

/-- An element is no thicker than it is large. -/
lemma thick_le {S : Setup n ι} {p : Nat} (h : ValidMesh S p 1) {τ η ρ : ℝ} (ht : Thick S τ) (hf : Fineness S η ρ) {c : Cell n ι} (hc : c ∈ S.cells) :
    τ ≤ (n + 1) * η := by
  obtain ⟨δ, hδ, hdet⟩ := det_const h hc
  have hdim := h.simplicial.dim
  have hjac : ∀ k : Fin (n + 1), ∃ a, c.e.jac 0 k = C a ∧ |a| ≤ η := by
    intro k
    obtain ⟨a, b, hab⟩ := affine _ (h.geom hc 0)
    refine ⟨b k, ?_, ?_⟩
    · simp [Elem.jac, hab, Pi.single_apply, Finset.sum_ite_eq]
    · have s0 : InSimplex (0 : Fin (n + 1) → ℝ) := ⟨fun i => le_rfl, by simp⟩
      have s1 : InSimplex (Pi.single k 1 : Fin (n + 1) → ℝ) := by
        refine ⟨fun i => ?_, ?_⟩
        · by_cases hi : i = k
          · subst hi; simp
          · simp [Pi.single_apply, hi]
        · simp
      have := hf.size c hc _ _ ⟨_, s1, rfl⟩ ⟨_, s0, rfl⟩ 0
      simpa [hab, Pi.single_apply] using this
  have hd : c.e.jac.det = ∑ k, c.e.jac 0 k * c.e.adj k 0 := by
    have := congrFun (congrFun (Matrix.mul_adjugate c.e.jac) 0) 0
    rw [Matrix.mul_apply] at this
    rw [Matrix.smul_apply, Matrix.one_apply_eq, smul_eq_mul, mul_one] at this
    exact this.symm
  choose a ha hale using hjac
  choose b hb hble using fun k => adj_le h ht hc k 0 hdet
  have hη := hf.pos
  have hτ := ht.pos
  have hsum : δ = ∑ k, a k * b k := by
    apply C_injective (Fin (n + 1)) ℝ
    rw [← hdet, hd, map_sum]
    exact Finset.sum_congr rfl fun k _ => by rw [ha, hb, C_mul]
  have hle : δ ≤ ∑ _k : Fin (n + 1), η * (δ / τ) := by
    rw [hsum]
    conv_lhs => rw [← hsum]
    rw [hsum]
    refine Finset.sum_le_sum fun k _ => (le_abs_self _).trans ?_
    rw [abs_mul]
    rw [← hsum]
    exact mul_le_mul (hale k) (hble k) (abs_nonneg _) hη.le
  rw [Finset.sum_const, Finset.card_univ, Fintype.card_fin, nsmul_eq_mul] at hle
  have : δ * τ ≤ ((n + 1 : Nat) : ℝ) * η * δ := by
    have := mul_le_mul_of_nonneg_right hle hτ.le
    calc δ * τ ≤ ((n + 1 : Nat) : ℝ) * (η * (δ / τ)) * τ := this
      _ = _ := by field_simp
  push_cast at this
  nlinarith

/-- **C151** for the automatic time step: with a CFL number below a constant, which is the same for all meshes, the whole simulation follows
Maxwell's equations up to a constant times `h ^ p + h ^ 4`. -/
theorem C151_automatic (n p : Nat) (ρ m0 m1 Λ α : ℝ) (hm0 : 0 < m0) (hm1 : m0 ≤ m1) (hΛ : 0 ≤ Λ) (hα : 0 ≤ α) (lobatto : Nat → List ℝ) (r : ℝ)
    (hr : TimeStep.Spec.FirstGap lobatto p r) :
    ∃ K c, 0 ≤ K ∧ 0 < c ∧ ∀ (ι : Type) [Fintype ι] [DecidableEq ι] (S : Setup n ι) (ms : List (Int × Material ℝ)) (h B : ℝ) (F : Solution n ι)
      (node : Elem n ι ℝ → Nat → Fin (n + 1) → ℝ) (m : TimeStep.Setup) (o : TimeStep.Options),
      S.alpha = α → Resolves S ms p ρ m0 m1 Λ h B o.finalTime F node → Regular S o.finalTime F p 5 B → S.cells ≠ [] →
      Describes m S → TimeStep.Spec.Known m → (if n = 0 then TimeStep.Spec.Usable1 m else TimeStep.Spec.Usable m) →
      TimeStep.Spec.Valid o → o.order = p → o.op = .global → o.timeStep = 0 → o.cfl ≤ c → 0 < o.finalTime → o.odeType = 0 →
      ∃ P A dt, S.fem ms = .ok P ∧ (∀ u : State ι ℝ, A.mulVec (flat u) = flat (globalMult P.prob u)) ∧ 0 < dt ∧
        ∀ (q : Sdirk ℝ) (x : State ι ℝ) (R : Type) (ps : List (Probe (Slot ι → ℝ) R)), Sampled S node F 0 x → Usable ps →
          ∃ (s0 s : Sim (Slot ι → ℝ) (Cache ℝ (Slot ι)) R) (y : Nat → State ι ℝ), y 0 = x ∧
            construct lobatto m o (flat x) fresh ps = .ok (dt, .rk4, s0) ∧
            (∀ fuel, stepCount dt o.finalTime ≤ fuel → run q .rk4 (globalTdo A fun _ => 0) dt o.finalTime fuel s0 = .done s) ∧
            Finished dt o.finalTime ps (fun k => flat (y k)) s ∧
            Tracks S ms node F dt o.finalTime y fun t => K * (1 + t) * √(volume S) * (B * (h ^ p + h ^ 4)) := by
  obtain ⟨K, cfl, hK0, hc, hK⟩ := C150_explicit n p ρ m0 m1 Λ α hm0 hm1 hΛ hα
  have hr0 := hr.1
  obtain ⟨c, hcdef⟩ : ∃ c, c = min cfl 1 / ((n + 1) * (1 + r)) := ⟨_, rfl⟩
  have hm : 0 < min cfl 1 := lt_min hc one_pos
  refine ⟨K, c, hK0, by rw [hcdef]; positivity, fun ι _ _ S ms h B F node m o ha rs hb hne hd hk hu hv hp hop h0 hcfl hT hode => ?_⟩
  obtain ⟨P, A, hP, hA, hrun⟩ := hK ι S ms h B o.finalTime F node ha rs hT hb
  obtain ⟨dt, e, hdt, ht⟩ := auto_thick rs.mesh rs.fine.weights hd hk hu lobatto hr o hp hv (by rw [hop]; simp)
  obtain ⟨c0, hc0⟩ := List.exists_mem_of_ne_nil _ hne
  have hh := rs.fine.pos
  have hocfl := hv.2.2
  have hle : dt ≤ min cfl 1 * h := by
    have := thick_le rs.mesh ht rs.fine hc0
    rw [div_le_iff₀ (by positivity)] at this
    have hc1 : o.cfl * ((n + 1) * (1 + r)) ≤ min cfl 1 := by
      rw [hcdef, le_div_iff₀ (by positivity)] at hcfl
      exact hcfl
    calc dt ≤ (n + 1) * h * (o.cfl * (1 + r)) := this
      _ = o.cfl * ((n + 1) * (1 + r)) * h := by ring
      _ ≤ min cfl 1 * h := mul_le_mul_of_nonneg_right hc1 hh.le
  have hle1 : dt ≤ cfl * h := hle.trans (mul_le_mul_of_nonneg_right (min_le_left _ _) hh.le)
  have hle2 : dt ≤ h := by
    have := hle.trans (mul_le_mul_of_nonneg_right (min_le_right cfl 1) hh.le)
    linarith
  have hchk : TimeStep.checkOptions o = .ok () := by
    have h1 := hv.1
    have h2 := hv.2.1
    unfold TimeStep.checkOptions
    rw [if_neg (by push Not; exact ⟨h1, h2⟩), if_neg (by push Not; exact hocfl)]
  refine ⟨P, A, dt, hP, hA, hdt, fun q x R ps hx hps => ?_⟩
  obtain ⟨s0, s, y, e0, e1, e2, e3, e4⟩ := explicit_run hrun lobatto m o hT.le rfl hdt hle1
    (construct_auto hchk h0 (ode := .rk4) (by rw [hode]; rfl) e) hode q x R ps hx hps
  refine ⟨s0, s, y, e0, e1, e2, e3, fun k hk w hw => (e4 k hk w hw).trans ?_⟩
  have hi : 0 ≤ instant dt o.finalTime k := le_min (by positivity) hT.le
  have hB := rs.bound
  have hpow : dt ^ 4 ≤ h ^ 4 := pow_le_pow_left₀ hdt.le hle2 4
  refine mul_le_mul_of_nonneg_left (mul_le_mul_of_nonneg_left (by linarith) hB) (by positivity)

end

end Dgtd.Simulate
