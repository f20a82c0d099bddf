/-
C149: how large the time step of the explicit integrator may be, and whether the automatic one is small enough.
-/
import Verif.Lemmas.Cfl
import Verif.Props.Polynomial
import Verif.Props.TimeInt

set_option linter.unusedSectionVars false

namespace Dgtd.Galerkin
open MvPolynomial Spec Dgtd.Op Dgtd.Op.Spec
open Dgtd.Implicit Dgtd.TimeInt.Spec
open Dgtd.Config (Material)
open Dgtd.TimeStep (estimateTimeStep)
open Dgtd.TimeStep.Spec (Known Usable Usable1 FirstGap)

variable {n : Nat} {ι : Type} [Fintype ι] [DecidableEq ι] {S : Setup n ι} {ms : List (Int × Material ℝ)} {p m : Nat}

/-- **C149**: on meshes of straight simplices the rate of change of the fields is bounded by the fields: the bound grows like the inverse of
the smallest height of an element, plus the conductivity, with a factor that depends on the order, the dimension, the smallest permittivity or
permeability and the upwind parameter, but on nothing else of the mesh. -/
theorem C149_rate (n p : Nat) (m0 α : ℝ) (hm0 : 0 < m0) (hα : 0 ≤ α) :
    ∃ K, 0 < K ∧ ∀ (ι : Type) [Fintype ι] [DecidableEq ι] (S : Setup n ι) (ms : List (Int × Material ℝ)) (τ s1 : ℝ), ValidMesh S p 1 →
      ValidMaterials S ms → AtLeast S ms m0 s1 → 0 ≤ s1 → 0 ≤ S.alpha → S.alpha ≤ α → Thick S τ →
      ∃ F, S.fem ms = .ok F ∧ ∀ u, fieldEnergy S ms (globalMult F.prob u) ≤ (K * (1 / τ + s1)) ^ 2 * fieldEnergy S ms u := by
  by_cases hn : n < 3
  · obtain ⟨L, hL⟩ := constants hn p
    have hL0 := hL.nonneg
    refine ⟨5 * (3 + 100 * (1 + α) * L) / m0, by positivity, ?_⟩
    intro ι _ _ S ms τ s1 h hm hs hs0 ha ha1 ht
    refine ⟨femOf S ms, fem_ok S ms hm, fun u => ?_⟩
    have k := rate_le h ms hm hL ht hm0 hs hs0 ha ha1 u
    have hτ := ht.pos
    rw [energy_eq h, energy_eq h] at k
    have nn : 0 ≤ fieldEnergy S ms u := by
      by_cases hu : u = 0
      · rw [← energy_eq h, hu]; simp [energy]
      · exact (fieldEnergy_pos h ms hm u hu).le
    have hL1 : 0 ≤ 5 * ((3 + 100 * (1 + α) * L) / τ + s1 / 2) / m0 := by positivity
    refine k.trans (mul_le_mul_of_nonneg_right (pow_le_pow_left₀ hL1 ?_ 2) nn)
    rw [div_mul_eq_mul_div]
    refine div_le_div_of_nonneg_right ?_ hm0.le
    rw [show 5 * (3 + 100 * (1 + α) * L) * (1 / τ + s1) = 5 * ((3 + 100 * (1 + α) * L) * (1 / τ + s1)) by ring]
    refine mul_le_mul_of_nonneg_left ?_ (by norm_num : (0 : ℝ) ≤ 5)
    rw [mul_add (3 + 100 * (1 + α) * L), mul_one_div]
    have : 0 ≤ 100 * (1 + α) * L * s1 := by positivity
    nlinarith
  · exact ⟨1, one_pos, fun ι _ _ S ms τ s1 h => absurd h.simplicial.dim hn⟩

lemma passive_mesh (h : ValidMesh S p 1) (hm : ValidMaterials S ms) : (∀ v : ι → ℝ, 0 ≤ v ⬝ᵥ (femOf S ms).prob.Msig.mulVec v) ∧
    ∀ u, u ≠ 0 → 0 < energy (massOf S ms) u := by
  refine ⟨fun v => ?_, fun u hu => ?_⟩
  · change 0 ≤ v ⬝ᵥ (massMatrix (S.cells.map fun c => (c, (materialOf ms c).sigma))).mulVec v
    rw [mass_form h]
    refine List.sum_nonneg fun y hy => ?_
    obtain ⟨c, hc, rfl⟩ := List.mem_map.1 hy
    obtain ⟨t, ht⟩ := materialOf_mem hm hc
    exact mul_nonneg (hm.sigma _ ht) (sq_nonneg' h hc _)
  · rw [energy_eq h]; exact fieldEnergy_pos h ms hm u hu

/-- **C149**: the explicit integrator is stable, for all times and with any sources, when the time step is at most a fixed multiple of the
smallest height of an element, and of the inverse of the conductivity.  The multiple is the same for all meshes. -/
theorem C149_stable (n p : Nat) (m0 α : ℝ) (hm0 : 0 < m0) (hα : 0 ≤ α) :
    ∃ c, 0 < c ∧ ∀ (ι : Type) [Fintype ι] [DecidableEq ι] (S : Setup n ι) (ms : List (Int × Material ℝ)) (τ s1 : ℝ), ValidMesh S p 1 →
      ValidMaterials S ms → AtLeast S ms m0 s1 → 0 ≤ s1 → 0 ≤ S.alpha → S.alpha ≤ α → Thick S τ →
      ∃ F A, S.fem ms = .ok F ∧ (∀ u : State ι ℝ, A.mulVec (flat u) = flat (globalMult F.prob u)) ∧
        ∀ (q : Sdirk ℝ) (src : ℝ → Slot ι → ℝ) (dt last : ℝ), 0 ≤ last → last ≤ dt → dt ≤ c * τ → dt * s1 ≤ c → ∀ (N : Nat) (u u' : State ι ℝ) (t : ℝ),
          ∃ y y' k k', TimeInt.run q .rk4 (TimeInt.globalTdo A src) (List.replicate N dt ++ [last]) (flat u) t fresh =
              some (flat y, t + N * dt + last, k) ∧
            TimeInt.run q .rk4 (TimeInt.globalTdo A src) (List.replicate N dt ++ [last]) (flat u') t fresh =
              some (flat y', t + N * dt + last, k') ∧
            fieldEnergy S ms (y - y') ≤ 4 * fieldEnergy S ms (u - u') := by
  obtain ⟨K, hK, rate⟩ := C149_rate n p m0 α hm0 hα
  refine ⟨1 / (8 * K), by positivity, ?_⟩
  intro ι _ _ S ms τ s1 h hm hs hs0 ha ha1 ht
  obtain ⟨F, e, hF⟩ := rate ι S ms τ s1 h hm hs hs0 ha ha1 ht
  rw [fem_ok S ms hm] at e
  obtain rfl := Except.ok.inj e
  obtain ⟨A, hA⟩ := exists_matrix (femOf S ms).prob
  refine ⟨femOf S ms, A, fem_ok S ms hm, hA, ?_⟩
  intro q src dt last h0 hl h1 h2 N u u' t
  have hτ := ht.pos
  obtain ⟨hsig, hpos⟩ := passive_mesh h hm
  have := TimeInt.C119_explicit_stable q (femOf S ms).prob (massOf S ms) (good_fem h ms hm ht.weights) ha hsig hpos A hA src
    (K * (1 / τ + s1)) (by positivity) (fun u => by rw [energy_eq h, energy_eq h]; exact hF u) dt last h0 hl ?_ N u u' t
  · obtain ⟨y, y', k, k', e1, e2, e3⟩ := this
    rw [energy_eq h, energy_eq h] at e3
    exact ⟨y, y', k, k', e1, e2, e3⟩
  · have g1 : dt * (1 / τ) ≤ 1 / (8 * K) := by rw [mul_one_div, div_le_iff₀ hτ]; exact h1
    calc dt * (K * (1 / τ + s1)) = K * (dt * (1 / τ) + dt * s1) := by ring
      _ ≤ K * (1 / (8 * K) + 1 / (8 * K)) := mul_le_mul_of_nonneg_left (add_le_add g1 h2) hK.le
      _ = 1 / 4 := by field_simp; norm_num

/-- **C149**: the automatic time step.  There is a CFL number, the same for all meshes of straight simplices, all permittivities and
permeabilities above a bound and all upwind parameters below one, with which the automatic step makes runs of the explicit integrator stable for
all times, with any sources, as long as the conductivity is not large compared with the inverse of the step.  In space not for the nodal
operator, which has its own rule. -/
theorem C149_automatic_partial (n p : Nat) (m0 α : ℝ) (hm0 : 0 < m0) (hα : 0 ≤ α) (lobatto : Nat → List ℝ) (r : ℝ) (hr : FirstGap lobatto p r) :
    ∃ c, 0 < c ∧ ∀ (ι : Type) [Fintype ι] [DecidableEq ι] (S : Setup n ι) (ms : List (Int × Material ℝ)) (s1 : ℝ) (m : TimeStep.Setup)
      (o : TimeStep.Options), ValidMesh S p 1 → ValidMaterials S ms → AtLeast S ms m0 s1 → 0 ≤ s1 → 0 ≤ S.alpha → S.alpha ≤ α →
      (∀ q ∈ S.interior ++ S.bdr, ∀ x ∈ q.2.rule, 0 ≤ x.1) → Describes m S → Known m → (if n = 0 then Usable1 m else Usable m) →
      TimeStep.Spec.Valid o → o.order = p → ¬ (o.op = .hesthaven ∧ m.dim = 3) → o.cfl ≤ c →
      ∃ dt F A, estimateTimeStep lobatto m o = .ok dt ∧ 0 < dt ∧ S.fem ms = .ok F ∧
        (∀ u : State ι ℝ, A.mulVec (flat u) = flat (globalMult F.prob u)) ∧
        (dt * s1 ≤ c → ∀ (q : Sdirk ℝ) (src : ℝ → Slot ι → ℝ) (last : ℝ), 0 ≤ last → last ≤ dt → ∀ (N : Nat) (u u' : State ι ℝ) (t : ℝ),
          ∃ y y' k k', TimeInt.run q .rk4 (TimeInt.globalTdo A src) (List.replicate N dt ++ [last]) (flat u) t fresh =
              some (flat y, t + N * dt + last, k) ∧
            TimeInt.run q .rk4 (TimeInt.globalTdo A src) (List.replicate N dt ++ [last]) (flat u') t fresh =
              some (flat y', t + N * dt + last, k') ∧
            fieldEnergy S ms (y - y') ≤ 4 * fieldEnergy S ms (u - u')) := by
  obtain ⟨c, hc, st⟩ := C149_stable n p m0 α hm0 hα
  have hr0 := hr.1
  refine ⟨min c (c / (1 + r)), lt_min hc (by positivity), ?_⟩
  intro ι _ _ S ms s1 m o h hm hs hs0 ha ha1 hw hd hk hu hv hp hop hcfl
  obtain ⟨dt, e, hdt, ht⟩ := auto_thick h hw hd hk hu lobatto hr o hp hv hop
  obtain ⟨F, A, hF, hA, run⟩ := st ι S ms _ s1 h hm hs hs0 ha ha1 ht
  refine ⟨dt, F, A, e, hdt, hF, hA, fun h2 q src last h0 hl => run q src dt last h0 hl ?_ (h2.trans (min_le_left _ _))⟩
  have hcfl0 := hv.2.2
  have : o.cfl * (1 + r) ≤ c := by
    have := hcfl.trans (min_le_right _ _)
    rwa [le_div_iff₀ (by positivity)] at this
  rw [mul_div_assoc', le_div_iff₀ (by positivity), mul_comm c]
  exact mul_le_mul_of_nonneg_left this hdt.le

/-! ### conductors -/

lemma rk4_eigen {V S : Type} [AddCommGroup V] [Module ℝ V] {F : TimeInt.Tdo V S} {A : V →ₗ[ℝ] V} (hF : ∀ t x, F.mult t x = A x) {v : V} {lam dt : ℝ}
    (hv : dt • A v = lam • v) (a t : ℝ) :
    (TimeInt.rk4 F (a • v) t dt).1 = ((1 + lam + lam ^ 2 / 2 + lam ^ 3 / 6 + lam ^ 4 / 24) * a) • v := by
  have h0 : (TimeInt.rk4 F (0 : V) t dt).1 = 0 := by simp [TimeInt.rk4, hF]
  have d := TimeInt.rk4_diff (F := F) (A := A) (src := fun _ => 0) (fun t x => by rw [hF, add_zero]) (a • v) 0 t dt
  rw [h0, sub_zero, sub_zero] at d
  rw [d]
  have hZ : (dt • A) v = lam • v := hv
  simp only [TimeInt.rkPoly, map_smul, hZ, smul_smul]
  module

/-- **C149**, what is missing: the automatic time step does not look at the conductivity.  On any mesh inside a magnetic wall, with any time
step, there is a conductor in which a uniform electric field, which should die out, grows without bound. -/
theorem C149_violated_conductors (h : ValidMesh S p m) (hin : ∀ q ∈ S.interior, q.1 = none ∧ q.2.s2 ≠ none) (hout : ∀ q ∈ S.bdr, q.1 = some .PMC)
    (hattr : ∀ c ∈ S.cells, 1 ≤ c.attr) (u : State ι ℝ) (hu : Carries S (fun _ f d => if f = .E ∧ d = 2 then 1 else 0) u) (dt : ℝ) (hdt : 0 < dt) :
    ∃ ms, ValidMaterials S ms ∧ ∃ F A, S.fem ms = .ok F ∧ (∀ u : State ι ℝ, A.mulVec (flat u) = flat (globalMult F.prob u)) ∧
      ∀ (q : Sdirk ℝ) (N : Nat) (t : ℝ), ∃ y k, TimeInt.run q .rk4 (TimeInt.globalTdo A fun _ => 0) (List.replicate N dt) (flat u) t fresh =
          some (flat y, t + N * dt, k) ∧ fieldEnergy S ms y = (121 / 64) ^ N * fieldEnergy S ms u := by
  obtain ⟨ms, hms⟩ : ∃ ms : List (Int × Material ℝ), ms = (S.cells.map Cell.attr).dedup.map fun a => (a, ⟨1, 1, 3 / dt⟩) := ⟨_, rfl⟩
  have hkey : ms.map Prod.fst = (S.cells.map Cell.attr).dedup := by rw [hms, List.map_map]; exact List.map_id _
  have hval : ∀ q ∈ ms, q.2 = ⟨1, 1, 3 / dt⟩ := by
    intro q hq; rw [hms] at hq; obtain ⟨a, -, rfl⟩ := List.mem_map.1 hq; rfl
  have hm : ValidMaterials S ms := by
    refine ⟨by rw [hkey]; exact List.nodup_dedup _, fun q hq => ?_, fun q hq => ?_, fun q hq => ?_, fun q hq => ?_, fun c hc => ?_⟩
    · have := List.mem_map_of_mem (f := Prod.fst) hq
      rw [hkey, List.mem_dedup] at this
      obtain ⟨c, hc, e⟩ := List.mem_map.1 this
      rw [← e]; exact hattr c hc
    · rw [hval q hq]; norm_num
    · rw [hval q hq]; norm_num
    · rw [hval q hq]; positivity
    · have : c.attr ∈ ms.map Prod.fst := by rw [hkey, List.mem_dedup]; exact List.mem_map_of_mem hc
      cases e : Assoc.find ms c.attr with
      | some m => exact ⟨m, rfl⟩
      | none => exact absurd this ((Assoc.find_none_iff _ _).1 e)
  have hmat : ∀ c ∈ S.cells, materialOf ms c = ⟨1, 1, 3 / dt⟩ := by
    intro c hc
    obtain ⟨t, ht⟩ := materialOf_mem hm hc
    exact hval _ ht
  obtain ⟨A, hA⟩ := exists_matrix (femOf S ms).prob
  refine ⟨ms, hm, femOf S ms, A, fem_ok S ms hm, hA, fun q N t => ?_⟩
  have hr : Carries S (fun _ f d => C (-(3 / dt)) * if f = .E ∧ d = 2 then 1 else 0) ((-(3 / dt)) • u) := by
    intro c hc f d
    have := hu c hc f d
    rw [map_mul, ← this]
    simp [onElem, Finset.mul_sum, mul_assoc]
  have hmax : Maxwell S ms (fun _ f d => if f = .E ∧ d = 2 then 1 else 0) (fun _ f d => C (-(3 / dt)) * if f = .E ∧ d = 2 then 1 else 0) := by
    intro c hc d
    rw [hmat c hc]
    have z : ∀ k : Dir, ddx (n := n) k 0 = 0 := fun k => by unfold ddx; split <;> simp
    have o : ∀ k : Dir, ddx (n := n) k 1 = 0 := fun k => by unfold ddx; split <;> simp
    constructor
    · simp only [curl, z, reduceCtorEq, false_and, if_false, sub_zero, zero_sub, map_neg, C_1, one_mul, true_and]; ring
    · fin_cases d <;> simp [curl, z, o]
  have hadm : Admissible S (fun _ f d => if f = .E ∧ d = 2 then 1 else 0) := by
    refine ⟨fun q hq hn x hx f d => ?_, fun q hq c hc => ?_, fun q hq c hc x hx => ?_⟩
    · obtain ⟨s, hs⟩ := Option.ne_none_iff_exists'.1 (hin q hq).2
      have : ∀ k, onSide (fun _ f d => if f = FieldT.E ∧ d = 2 then (1 : Poly (n + 1) ℝ) else 0) q.2.s1 x f k -
          onOther (fun _ f d => if f = FieldT.E ∧ d = 2 then (1 : Poly (n + 1) ℝ) else 0) q.2 x f k = 0 := by
        intro k
        unfold onOther onSide
        rw [hs]
        dsimp only
        split_ifs <;> simp
      simp only [this]
      simp [cross]
    · rw [(hin q hq).1] at hc; cases hc
    · rw [hout q hq] at hc
      obtain rfl := Option.some.inj hc
      unfold Obeys onSide
      intro d
      simp [cross]
  have hL : globalMult (femOf S ms).prob u = (-(3 / dt)) • u := global_exact h ms hm hu hr hmax hadm
  have hv : dt • A.mulVecLin (flat u) = (-3 : ℝ) • flat u := by
    rw [Matrix.mulVecLin_apply, hA, hL, show flat ((-(3 / dt)) • u) = (-(3 / dt)) • flat u from rfl, smul_smul]
    congr 1
    field_simp
  have key : ∀ (N : Nat) (a t : ℝ), TimeInt.run q .rk4 (TimeInt.globalTdo A fun _ => 0) (List.replicate N dt) (a • flat u) t fresh =
      some (((11 / 8) ^ N * a) • flat u, t + N * dt, fresh) := by
    intro N
    induction N with
    | zero => intro a t; simp [TimeInt.run]
    | succ N ih =>
      intro a t
      have e := rk4_eigen (F := TimeInt.globalTdo A fun _ => 0) (A := A.mulVecLin) (fun t x => add_zero _) hv a t
      simp only [List.replicate_succ, TimeInt.run, TimeInt.step, Option.bind_eq_bind, Option.bind_some]
      rw [show (TimeInt.rk4 (TimeInt.globalTdo A fun _ => 0) (a • flat u) t dt).2 = t + dt from rfl, e, ih]
      congr 2
      · congr 1; ring
      · congr 1; push_cast; ring
  have k := key N 1 t
  rw [one_smul, mul_one] at k
  refine ⟨(11 / 8 : ℝ) ^ N • u, fresh, k, ?_⟩
  rw [← energy_eq h, ← energy_eq h]
  unfold energy
  simp only [Pi.smul_apply, Matrix.mulVec_smul, smul_dotProduct, dotProduct_smul, smul_eq_mul, ← mul_add]
  rw [← Finset.mul_sum, ← Finset.mul_sum, show (121 / 64 : ℝ) = (11 / 8) * (11 / 8) by norm_num, mul_pow]
  ring

end Dgtd.Galerkin
