/-
C153: on meshes that are refined, computed scattered and total fields approach those of Maxwell's equations when plane waves are injected.
-/
import Verif.Lemmas.GalerkinSource
import Verif.Props.TimeIntDriven

set_option linter.unusedSectionVars false

namespace Dgtd.Par
open Dgtd.Op Dgtd.Op.Spec Spec Dgtd.TimeInt Dgtd.TimeInt.Spec
open Dgtd.Implicit (Sdirk)

variable {ι : Type} [Fintype ι] [DecidableEq ι]

/-- `C122_converges_waves` on one rank. -/
theorem waves_one (C : Case ι ℝ) (M : FieldT → Matrix ι ι ℝ) (h : Op.Spec.Good C.prob M) (ha : 0 ≤ C.alpha)
    (hs : ∀ v : ι → ℝ, 0 ≤ v ⬝ᵥ C.Msig.mulVec v) (hM : ∀ u, u ≠ 0 → 0 < energy M u) :
    ∃ c, 0 ≤ c ∧ ∀ (waves : ℝ → List (State ι ℝ)), (∀ f d i, ContDiff ℝ 4 fun t => sourceField C (waves t) f d i) →
      ∀ (u : ℝ → State ι ℝ), (∀ t f d i, HasDerivAt (fun s => u s f d i) (globalMult C.prob (u t) f d i -
        applyBlocks (sourceBlocks C C.tfFaces) (sourceField C (waves t)) f d i) t) → ∀ (t T : ℝ),
      ∃ K, 0 ≤ K ∧ ∀ (L : ℝ), 0 ≤ L → (∀ u, energy M (globalMult C.prob u) ≤ L ^ 2 * energy M u) →
        ∀ (q : Sdirk ℝ) (S : Type) (s : S) (dt last : ℝ) (n : Nat), 0 ≤ last → last ≤ dt → dt ≤ 1 → dt * L ≤ 1 / 4 →
        n * dt + last ≤ T →
        ∃ y, run q .rk4 (explicitTdo fun t v => sourceRhs C (waves t) v)
            (List.replicate n dt ++ [last]) (u t) t s = some (y, t + n * dt + last, s) ∧
          size M (y - u (t + n * dt + last)) ≤ T * (K * dt ^ 4 + c / 100000000) := by
  obtain ⟨c, hc0, hc⟩ := C128_one C M h ha hs hM
  refine ⟨c, hc0, ?_⟩
  intro waves hw u hu t T
  obtain ⟨sr, hsr⟩ : ∃ sr : ℝ → State ι ℝ, sr = fun t => -applyL (sourceBlocks C C.tfFaces) (sourceField C (waves t)) := ⟨_, rfl⟩
  have h1 : ContDiff ℝ (4 : ℕ) fun t => sourceField C (waves t) :=
    contDiff_pi.2 fun f => contDiff_pi.2 fun d => contDiff_pi.2 fun i => hw f d i
  have hsm : ContDiff ℝ (4 : ℕ) sr := by
    rw [hsr]
    exact ((LinearMap.toContinuousLinearMap (applyL (sourceBlocks C C.tfFaces))).contDiff.comp h1).neg
  have hd : ∀ t, HasDerivAt u (opL C.prob (u t) + sr t) t := by
    intro t
    refine hasDerivAt_pi.2 fun f => hasDerivAt_pi.2 fun d => hasDerivAt_pi.2 fun i => ?_
    rw [hsr]
    exact (hu t f d i).congr_deriv (sub_eq_add_neg _ _)
  obtain ⟨K, K0, hK⟩ := derivs_bounded (sform M) hsm hd (t - 2) (t + T + 2)
  refine ⟨K, K0, ?_⟩
  intro L hL0 hL q S s dt last n h0 hl hdt1 hdt hT
  obtain ⟨y, y', r, r', hy⟩ := hc L hL0 hL q S s waves dt last h0 hl hdt n (u t) t
  obtain ⟨z, rz, hz⟩ := waves_all C M h ha hs hM L hL0 hL q s waves (derivs (opL C.prob) sr u)
    (fun n hn t f d i => hasDerivAt_pi.1 (hasDerivAt_pi.1 (hasDerivAt_pi.1 (derivs_smooth hsm hd n (by omega) t) f) d) i)
    (fun t f d i => by
      simp only [derivs, iteratedDeriv_zero]
      rw [hsr]
      exact (sub_eq_add_neg _ _).symm)
    dt last K h0 hl hdt n t
    (fun j m hj hm r h1 h2 => by
      have := hK j m hj r (by linarith) (by linarith)
      rw [opL_pow] at this
      exact this)
  have rz : run q .rk4 (explicitTdo fun t v f d i => globalMult C.prob v f d i -
            applyBlocks (sourceBlocks C C.tfFaces) (sourceField C (waves t)) f d i)
          (List.replicate n dt ++ [last]) (u t) t s = some (z, t + n * dt + last, s) := rz
  have hz : size M (z - u (t + n * dt + last)) ≤ (n * dt + last) * dt ^ 4 * K := hz
  rw [r] at rz
  obtain rfl : y = z := (Prod.mk.inj (Option.some.inj rz)).1
  refine ⟨y', r', ?_⟩
  have hD := sform_diss h ha hs hM
  have t1 := nrm_add_le hD.symm hD.nonneg ((-1 : ℝ) • (y - y')) (y - u (t + n * dt + last))
  have e1 : (-1 : ℝ) • (y - y') + (y - u (t + n * dt + last)) = y' - u (t + n * dt + last) := by module
  rw [e1, nrm_smul] at t1
  simp only [abs_neg, abs_one, one_mul] at t1
  have t2 : size M (y' - u (t + n * dt + last)) ≤ size M (y - y') + size M (y - u (t + n * dt + last)) := t1
  refine t2.trans ?_
  have hdt0 := h0.trans hl
  have k1 : c * (n * dt + last) ≤ c * T := mul_le_mul_of_nonneg_left hT hc0
  have k2 : (n * dt + last) * (dt ^ 4 * K) ≤ T * (dt ^ 4 * K) := mul_le_mul_of_nonneg_right hT (by positivity)
  linarith

end Dgtd.Par

namespace Dgtd.Galerkin
open MvPolynomial Spec Dgtd.Op Dgtd.Op.Spec Dgtd.Par Dgtd.Par.Spec
open Dgtd.Implicit Dgtd.TimeInt.Spec Dgtd.Super.Spec Dgtd.Frame
open Dgtd.Config (Material)
open scoped ContDiff

/-- Constant of the error, from the trace inequality. -/
lemma wave_const (n p : Nat) (ρ m0 m1 Λ α : ℝ) (hΛ : 0 ≤ Λ) :
    ∃ L K, 0 ≤ L ∧ 0 ≤ K ∧ K = errConst L ρ m0 m1 Λ ((1 + α) * (2 + Λ) - 1) p ∧ (n < 3 →
    ∀ (face : Option (Fin (n + 1))) (turn : Equiv.Perm (Fin (n + 1))) (v : Poly (n + 1) ℝ), v.totalDegree ≤ p →
      integral n (bind₁ (loc face turn) v ^ 2) ≤ L * integral (n + 1) (v ^ 2)) := const_exists n p ρ m0 m1 Λ _ hΛ

variable {n : Nat} {ι : Type} [Fintype ι] [DecidableEq ι] {S : Setup n ι} {ms : List (Int × Material ℝ)} {p : Nat}
  {ρ m0 m1 Λ h B T : ℝ} {tot : Elem n ι ℝ → Bool} {G : Solution n ι} {ws : List (Wave n)} {node : Elem n ι ℝ → Nat → Fin (n + 1) → ℝ}
  {tf : MeshFace n ι → Bool} {sub : List ι} {sfSub : Option (List ι)}

/-- The distance of a solution of the equations on the mesh. -/
lemma wave_error (r : Scatters S ms p ρ m0 m1 Λ h B T tot G ws node) (hsf : Surface S tf sub sfSub tot) (hm0 : 0 < m0) (hm1 : m0 ≤ m1) (hΛ : 0 ≤ Λ)
    (hα : 0 ≤ S.alpha) {L : ℝ} (hL0 : 0 ≤ L)
    (hL : ∀ (face : Option (Fin (n + 1))) (turn : Equiv.Perm (Fin (n + 1))) (v : Poly (n + 1) ℝ), v.totalDegree ≤ p →
      integral n (bind₁ (loc face turn) v ^ 2) ≤ L * integral (n + 1) (v ^ 2))
    {waves : ℝ → List (State ι ℝ)} (hs : ∀ t, SampledWaves S node ws t (waves t)) {u : ℝ → State ι ℝ}
    (hu : ∀ t f d i, HasDerivAt (fun s => u s f d i) (globalMult (femOf S ms).prob (u t) f d i -
      applyBlocks (sourceBlocks (S.source (femOf S ms) tf sub sfSub) (S.source (femOf S ms) tf sub sfSub).tfFaces)
        (sourceField (S.source (femOf S ms) tf sub sfSub) (waves t)) f d i) t)
    (hu0 : Sampled S node (stored tot G ws) 0 (u 0)) {t E : ℝ} (h0 : 0 ≤ t) (hT : t ≤ T) {y z : State ι ℝ}
    (hy : size (massOf S ms) (y - u t) ≤ E) (hz : Sampled S node (stored tot G ws) t z) :
    size (massOf S ms) (y - z) ≤ errConst L ρ m0 m1 Λ ((1 + S.alpha) * (2 + Λ) - 1) p * (1 + t) * √(volume S) * (B * h ^ p) + E := by
  have rs := scatters_smooth r
  have hP := passive_of rs hα
  obtain ⟨w, hw, res, hres⟩ := wave_interpolant r hsf hΛ hm0 hα hL0 hL hs
  have e1 := Super.near hP h0 (u := u) (fun r f d i => (hu r f d i).congr_deriv (sub_eq_add_neg _ _)) ⟨res, fun s h1 h2 => hres s h1 (h2.trans hT)⟩
  rw [sub_zero] at e1
  have e2 := Super.size_tri hP y (u t) (w t)
  exact total_error' rs hm0 hm1 hΛ hα hw h0 hT hu0 hz (by linarith)

lemma dof_cell (r : ValidMesh S p 1) (i : ι) : ∃ c ∈ S.cells, ∃ k < c.e.size, c.e.dof k = i := by
  obtain ⟨c, hc, hi⟩ := List.mem_flatMap.1 (r.dofs_all i)
  obtain ⟨k, hk, rfl⟩ := List.mem_map.1 hi
  exact ⟨c, hc, k, List.mem_range.1 hk, rfl⟩

lemma source_smooth (r : Scatters S ms p ρ m0 m1 Λ h B T tot G ws node) {waves : ℝ → List (State ι ℝ)} (hs : ∀ t, SampledWaves S node ws t (waves t))
    (C : Case ι ℝ) (f : FieldT) (d : Dir) (i : ι) : ContDiff ℝ ∞ fun t => sourceField C (waves t) f d i := by
  by_cases hi : i ∈ C.sub
  · obtain ⟨c, hc, k, hk, rfl⟩ := dof_cell r.mesh i
    have e : (fun t => sourceField C (waves t) f d (c.e.dof k)) =
        fun t => incident ws f d (t, fun j => eval (node c.e k) (c.e.geom j)) * tfsfSign C (c.e.dof k) := by
      funext t
      rw [sourceField_eq C _ f d _ hi, sampled_total (hs t) c hc k hk f d]
    rw [e]
    exact (((propagates_incident r.waves).smooth f d).comp (contDiff_id.prodMk contDiff_const)).mul contDiff_const
  · unfold sourceField
    simp only [if_neg hi]
    exact contDiff_const

lemma source_cont (C : Case ι ℝ) {waves : ℝ → List (State ι ℝ)} (hc : ∀ f d i, ContDiff ℝ ∞ fun t => sourceField C (waves t) f d i)
    (f : FieldT) (d : Dir) (i : ι) : Continuous fun t => -applyBlocks (sourceBlocks C C.tfFaces) (sourceField C (waves t)) f d i := by
  have h1 : ContDiff ℝ ∞ fun t => sourceField C (waves t) :=
    contDiff_pi.2 fun f => contDiff_pi.2 fun d => contDiff_pi.2 fun i => hc f d i
  have h2 := ((LinearMap.toContinuousLinearMap (applyL (sourceBlocks C C.tfFaces))).contDiff.comp h1).continuous
  exact (((continuous_apply i).comp ((continuous_apply d).comp ((continuous_apply f).comp h2)))).neg

/-- **C153**.  Plane waves are injected on a surface inside a mesh of straight elements of order `p`, no larger than `h` and no thinner than `h / ρ`.
Let `G` be the total field of the scattering problem.  The solution of the equations on the mesh that starts at the values at the nodes stays near
the values of `G` at the nodes in the total-field region and near those of `G` less the waves in the scattered-field region.  The energy of the
difference is at most of order `h ^ (2 p)`, with a constant that does not depend on the mesh. -/
theorem C153_solution (n p : Nat) (ρ m0 m1 Λ α : ℝ) (hm0 : 0 < m0) (hm1 : m0 ≤ m1) (hΛ : 0 ≤ Λ) (hα : 0 ≤ α) :
    ∃ K, 0 ≤ K ∧ ∀ (ι : Type) [Fintype ι] [DecidableEq ι] (S : Setup n ι) (ms : List (Int × Material ℝ)) (h B T : ℝ) (tot : Elem n ι ℝ → Bool)
      (G : Solution n ι) (ws : List (Wave n)) (node : Elem n ι ℝ → Nat → Fin (n + 1) → ℝ) (tf : MeshFace n ι → Bool) (sub : List ι)
      (sfSub : Option (List ι)), S.alpha = α → Scatters S ms p ρ m0 m1 Λ h B T tot G ws node → Surface S tf sub sfSub tot →
      ∃ P C, S.fem ms = .ok P ∧ C = S.source P tf sub sfSub ∧
        ∀ waves : ℝ → List (State ι ℝ), (∀ t, SampledWaves S node ws t (waves t)) →
        ∀ u : ℝ → State ι ℝ, (∀ t f d i, HasDerivAt (fun t => u t f d i)
            (globalMult P.prob (u t) f d i - applyBlocks (sourceBlocks C C.tfFaces) (sourceField C (waves t)) f d i) t) →
          Sampled S node (stored tot G ws) 0 (u 0) → ∀ t, 0 ≤ t → t ≤ T → ∀ z, Sampled S node (stored tot G ws) t z →
            fieldEnergy S ms (u t - z) ≤ (K * (1 + t) * B * h ^ p) ^ 2 * volume S := by
  obtain ⟨L, K, hL0, hK0, hK, hL⟩ := wave_const n p ρ m0 m1 Λ α hΛ
  refine ⟨K, hK0, fun ι _ _ S ms h B T tot G ws node tf sub sfSub ha r hsf => ⟨femOf S ms, _, fem_ok S ms r.materials, rfl, ?_⟩⟩
  subst ha
  intro waves hs u hu hu0 t h0 hT z hz
  have z0 : size (massOf S ms) (u t - u t) ≤ 0 := by
    rw [sub_self]; unfold size; rw [show energy (massOf S ms) 0 = 0 by simp [energy], Real.sqrt_zero]
  have e := wave_error r hsf hm0 hm1 hΛ hα hL0 (hL r.mesh.simplicial.dim) hs hu hu0 h0 hT z0 hz
  rw [add_zero, ← hK] at e
  exact square_error (scatters_smooth r) hK0 h0 e

/-- A run of explicit steps within the limit, with the waves evaluated at the nodes and skipped where they are weak. -/
theorem C153_explicit (n p : Nat) (ρ m0 m1 Λ α : ℝ) (hm0 : 0 < m0) (hm1 : m0 ≤ m1) (hΛ : 0 ≤ Λ) (hα : 0 ≤ α) :
    ∃ K, 0 ≤ K ∧ ∀ (ι : Type) [Fintype ι] [DecidableEq ι] (S : Setup n ι) (ms : List (Int × Material ℝ)) (h B T : ℝ) (tot : Elem n ι ℝ → Bool)
      (G : Solution n ι) (ws : List (Wave n)) (node : Elem n ι ℝ → Nat → Fin (n + 1) → ℝ) (tf : MeshFace n ι → Bool) (sub : List ι)
      (sfSub : Option (List ι)), S.alpha = α → Scatters S ms p ρ m0 m1 Λ h B T tot G ws node → Surface S tf sub sfSub tot →
      ∃ P dtMax c, S.fem ms = .ok P ∧ 0 < dtMax ∧ 0 ≤ c ∧
        ∀ waves : ℝ → List (State ι ℝ), (∀ t, SampledWaves S node ws t (waves t)) →
        ∀ x : State ι ℝ, Sampled S node (stored tot G ws) 0 x →
          ∃ Ct, ∀ (q : Sdirk ℝ) (Cc : Type) (s : Cc) (dt last : ℝ) (k : Nat), 0 ≤ last → last ≤ dt → dt ≤ dtMax → k * dt + last ≤ T →
            ∃ y, TimeInt.run q .rk4 (TimeInt.explicitTdo fun t v => sourceRhs (S.source P tf sub sfSub) (waves t) v)
                (List.replicate k dt ++ [last]) x 0 s = some (y, k * dt + last, s) ∧
              ∀ z, Sampled S node (stored tot G ws) (k * dt + last) z →
                √(fieldEnergy S ms (y - z)) ≤ K * (1 + (k * dt + last)) * √(volume S) * (B * h ^ p) + T * (Ct * dt ^ 4 + c / 100000000) := by
  obtain ⟨L, K, hL0, hK0, hK, hL⟩ := wave_const n p ρ m0 m1 Λ α hΛ
  refine ⟨K, hK0, fun ι _ _ S ms h B T tot G ws node tf sub sfSub ha r hsf => ?_⟩
  subst ha
  have hP := passive_of (scatters_smooth r) hα
  have eP := source_prob (tf := tf) (sub := sub) (sfSub := sfSub) S ms
  obtain ⟨N, hN0, hN⟩ := TimeInt.C119_bounded (femOf S ms).prob (massOf S ms) hP.pos
  obtain ⟨c, hc0, hc⟩ := waves_one (S.source (femOf S ms) tf sub sfSub) (massOf S ms) (by rw [eP]; exact hP.good) hα hP.sig hP.pos
  refine ⟨femOf S ms, 1 / (4 * (N + 1)), c, fem_ok S ms r.materials, by positivity, hc0, fun waves hs x hx => ?_⟩
  have hsm := fun f d i => source_smooth r hs (S.source (femOf S ms) tf sub sfSub) f d i
  obtain ⟨⟨u, hu0, hu⟩, -⟩ := TimeInt.C122_solution (femOf S ms).prob (massOf S ms) hP.good hα hP.sig hP.pos _
    (fun f d i => source_cont (S.source (femOf S ms) tf sub sfSub) hsm f d i) 0 x
  have hu : ∀ t f d i, HasDerivAt (fun s => u s f d i) (globalMult (femOf S ms).prob (u t) f d i -
      applyBlocks (sourceBlocks (S.source (femOf S ms) tf sub sfSub) (S.source (femOf S ms) tf sub sfSub).tfFaces)
        (sourceField (S.source (femOf S ms) tf sub sfSub) (waves t)) f d i) t := fun t f d i => (hu t f d i).congr_deriv (sub_eq_add_neg _ _).symm
  obtain ⟨Ct, hCt0, hCt⟩ := hc waves (fun f d i => (hsm f d i).of_le (by norm_cast)) u (by rw [eP]; exact hu) 0 T
  refine ⟨Ct, fun q Cc s dt last k h1 h2 h3 h4 => ?_⟩
  have hdt : dt * (4 * (N + 1)) ≤ 1 := by rwa [le_div_iff₀ (by positivity)] at h3
  have hdt0 : 0 ≤ dt := h1.trans h2
  obtain ⟨y, e, hy⟩ := hCt N hN0 (by rw [eP]; exact hN) q Cc s dt last k h1 h2 (by nlinarith) (by nlinarith) h4
  rw [hu0] at e
  simp only [zero_add] at e hy
  refine ⟨y, e, fun z hz => ?_⟩
  rw [← energy_eq r.mesh, hK]
  exact wave_error r hsf hm0 hm1 hΛ hα hL0 (hL r.mesh.simplicial.dim) hs hu (by rw [hu0]; exact hx) (by positivity) h4 hy hz

/-- The same on any number of ranks. -/
theorem C153_ranks (n p : Nat) (ρ m0 m1 Λ α : ℝ) (hm0 : 0 < m0) (hm1 : m0 ≤ m1) (hΛ : 0 ≤ Λ) (hα : 0 ≤ α) :
    ∃ K, 0 ≤ K ∧ ∀ (ι : Type) [Fintype ι] [DecidableEq ι] (S : Setup n ι) (ms : List (Int × Material ℝ)) (h B T : ℝ) (tot : Elem n ι ℝ → Bool)
      (G : Solution n ι) (ws : List (Wave n)) (node : Elem n ι ℝ → Nat → Fin (n + 1) → ℝ) (tf : MeshFace n ι → Bool) (sub : List ι)
      (sfSub : Option (List ι)), S.alpha = α → Scatters S ms p ρ m0 m1 Λ h B T tot G ws node → Surface S tf sub sfSub tot →
      ∃ P dtMax c, S.fem ms = .ok P ∧ 0 < dtMax ∧ 0 ≤ c ∧
        ∀ waves : ℝ → List (State ι ℝ), (∀ t, SampledWaves S node ws t (waves t)) →
        ∀ x : State ι ℝ, Sampled S node (stored tot G ws) 0 x →
          ∃ Ct, ∀ {R : Type} [DecidableEq R] {N H : R → Nat} {Q : (r : R) → RankCase (N r) (H r) ℝ}
            {src : (r : R) → Fin (H r) → (q : R) × Fin (N q)} {num : (r : R) → Fin (N r + H r) → ι} {side1 side2 : Face ι ℝ → R},
            SplitCase (S.source P tf sub sfSub) Q src num side1 side2 →
            ∀ (q : Sdirk ℝ) (Cc : Type) (s : Cc) (dt last : ℝ) (k : Nat), 0 ≤ last → last ≤ dt → dt ≤ dtMax → k * dt + last ≤ T →
            ∃ y, TimeInt.run q .rk4 (TimeInt.explicitTdo fun t v => sourceRhsPar Q src (fun r => (waves t).map fun w => scatter (G := H) num w r) v)
                (List.replicate k dt ++ [last]) (scatter num x) 0 s = some (scatter num y, k * dt + last, s) ∧
              ∀ z, Sampled S node (stored tot G ws) (k * dt + last) z →
                √(fieldEnergy S ms (y - z)) ≤ K * (1 + (k * dt + last)) * √(volume S) * (B * h ^ p) + T * (Ct * dt ^ 4 + c / 100000000) := by
  obtain ⟨L, K, hL0, hK0, hK, hL⟩ := wave_const n p ρ m0 m1 Λ α hΛ
  refine ⟨K, hK0, fun ι _ _ S ms h B T tot G ws node tf sub sfSub ha r hsf => ?_⟩
  subst ha
  have hP := passive_of (scatters_smooth r) hα
  have eP := source_prob (tf := tf) (sub := sub) (sfSub := sfSub) S ms
  obtain ⟨N, hN0, hN⟩ := TimeInt.C119_bounded (femOf S ms).prob (massOf S ms) hP.pos
  obtain ⟨c, hc0, hc⟩ := C122_converges_waves (S.source (femOf S ms) tf sub sfSub) (massOf S ms) (by rw [eP]; exact hP.good) hα hP.sig hP.pos
  refine ⟨femOf S ms, 1 / (4 * (N + 1)), c, fem_ok S ms r.materials, by positivity, hc0, fun waves hs x hx => ?_⟩
  have hsm := fun f d i => source_smooth r hs (S.source (femOf S ms) tf sub sfSub) f d i
  obtain ⟨⟨u, hu0, hu⟩, -⟩ := TimeInt.C122_solution (femOf S ms).prob (massOf S ms) hP.good hα hP.sig hP.pos _
    (fun f d i => source_cont (S.source (femOf S ms) tf sub sfSub) hsm f d i) 0 x
  have hu : ∀ t f d i, HasDerivAt (fun s => u s f d i) (globalMult (femOf S ms).prob (u t) f d i -
      applyBlocks (sourceBlocks (S.source (femOf S ms) tf sub sfSub) (S.source (femOf S ms) tf sub sfSub).tfFaces)
        (sourceField (S.source (femOf S ms) tf sub sfSub) (waves t)) f d i) t := fun t f d i => (hu t f d i).congr_deriv (sub_eq_add_neg _ _).symm
  obtain ⟨Ct, hCt0, hCt⟩ := hc waves (fun f d i => (hsm f d i).of_le (by norm_cast)) u (by rw [eP]; exact hu) 0 T
  refine ⟨Ct, ?_⟩
  intro R _ N' H Q src num side1 side2 hsp q Cc s dt last k h1 h2 h3 h4
  have hdt : dt * (4 * (N + 1)) ≤ 1 := by rwa [le_div_iff₀ (by positivity)] at h3
  have hdt0 : 0 ≤ dt := h1.trans h2
  obtain ⟨y, e, hy⟩ := hCt hsp N hN0 (by rw [eP]; exact hN) q Cc s dt last k h1 h2 (by nlinarith) (by nlinarith) h4
  rw [hu0] at e
  simp only [zero_add] at e hy
  refine ⟨y, e, fun z hz => ?_⟩
  rw [← energy_eq r.mesh, hK]
  exact wave_error r hsf hm0 hm1 hΛ hα hL0 (hL r.mesh.simplicial.dim) hs hu (by rw [hu0]; exact hx) (by positivity) h4 hy hz

end Dgtd.Galerkin
