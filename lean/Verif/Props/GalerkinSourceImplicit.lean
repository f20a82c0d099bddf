/-
C128 and C153 with implicit integrators, on one rank.
-/
import Verif.Props.GalerkinSource
import Verif.Lemmas.TimeIntPerturb

set_option linter.unusedSectionVars false

namespace Dgtd.Par
open Dgtd.Op Dgtd.Op.Spec Spec Dgtd.TimeInt Dgtd.TimeInt.Spec
open Dgtd.Implicit

variable {ι : Type} [Fintype ι] [DecidableEq ι]

/-- The waves enter the implicit solve as they enter the explicit right-hand side. -/
theorem sourceRhs_eq (C : Case ι ℝ) (waves : List (State ι ℝ)) (v : State ι ℝ) : sourceRhs C waves v = globalMult C.prob v + sourceTerm C waves := by
  unfold sourceRhs sourceTerm
  split
  · exact (add_zero _).symm
  · funext f d i; exact sub_eq_add_neg _ _

/-- The waves that are neglected. -/
lemma sourceTerm_small (C : Case ι ℝ) (M : FieldT → Matrix ι ι ℝ) : ∃ c, 0 ≤ c ∧ ∀ waves : List (State ι ℝ),
    size M (sourceTerm C waves - fun f d i => -applyBlocks (sourceBlocks C C.tfFaces) (sourceField C waves) f d i) ≤ c / 100000000 := by
  obtain ⟨c, hc0, hc⟩ := small_image M (sourceBlocks C C.tfFaces)
  refine ⟨c, hc0, fun waves => ?_⟩
  unfold sourceTerm
  split
  · rename_i hs
    have e : ((fun _ _ _ => 0 : State ι ℝ) - fun f d i => -applyBlocks (sourceBlocks C C.tfFaces) (sourceField C waves) f d i) =
        fun f d i => applyBlocks (sourceBlocks C C.tfFaces) (sourceField C waves) f d i := by
      funext f d i
      exact (zero_sub _).trans (neg_neg _)
    rw [e]
    refine (hc _ (1 / 100000000) (by norm_num) fun f d i => ?_).trans (le_of_eq (by ring))
    exact (small_of_skip C waves hs f d i).le
  · rw [sub_self]
    have : size M (0 : State ι ℝ) = 0 := by unfold size; rw [show energy M 0 = 0 by simp [energy], Real.sqrt_zero]
    rw [this]; positivity

/-- C128 with implicit integrators: the fields at the end of a run that neglects weak waves, and of one that does not. -/
theorem C128_implicit (C : Case ι ℝ) (M : FieldT → Matrix ι ι ℝ) (h : Op.Spec.Good C.prob M) (ha : 0 ≤ C.alpha)
    (hs : ∀ v : ι → ℝ, 0 ≤ v ⬝ᵥ C.Msig.mulVec v) (hM : ∀ u, u ≠ 0 → 0 < energy M u) :
    ∃ c, 0 ≤ c ∧ ∀ A : Matrix (Slot ι) (Slot ι) ℝ, (∀ u : State ι ℝ, A.mulVec (flat u) = flat (globalMult C.prob u)) → ∀ (q : Sdirk ℝ), Ideal33 q → ∀ (o : Ode), o ≠ .rk4 → ∀ (waves : ℝ → List (State ι ℝ)) (dts : List ℝ), (∀ dt ∈ dts, 0 ≤ dt) →
      ∀ (u : State ι ℝ) (t : ℝ), ∃ y y' s s',
        run q o (globalTdo A fun t => flat fun f d i => -applyBlocks (sourceBlocks C C.tfFaces) (sourceField C (waves t)) f d i) dts (flat u) t fresh =
          some (flat y, t + dts.sum, s) ∧
        run q o (globalTdo A fun t => flat (sourceTerm C (waves t))) dts (flat u) t fresh = some (flat y', t + dts.sum, s') ∧
        size M (y - y') ≤ c * dts.sum / 100000000 := by
  obtain ⟨c, hc0, hc⟩ := sourceTerm_small C M
  refine ⟨10 * c, by positivity, ?_⟩
  intro A hA q hq o ho waves dts hp u t
  have hδ : ∀ t, nrm (eform M) (flat (sourceTerm C (waves t)) -
      flat (fun f d i => -applyBlocks (sourceBlocks C C.tfFaces) (sourceField C (waves t)) f d i)) ≤ c / 100000000 := fun t => hc (waves t)
  obtain ⟨y', y, s', s, e', e, le⟩ := run_differ hq (global_solves h ha hs hM hA fun t => flat (sourceTerm C (waves t)))
    (global_solves h ha hs hM hA fun t => flat fun f d i => -applyBlocks (sourceBlocks C C.tfFaces) (sourceField C (waves t)) f d i)
    (eform_diss h ha hs hM hA) ho hδ dts (flat u) (flat u) t fresh fresh hp (Implicit.good_fresh A) (Implicit.good_fresh A)
  refine ⟨unflat y, unflat y', s, s', e, e', ?_⟩
  rw [sub_self, show nrm (eform M) (0 : Slot ι → ℝ) = 0 by simp [nrm], zero_add] at le
  have hD := eform_diss h ha hs hM hA
  have e1 : nrm (eform M) (y - y') = nrm (eform M) (y' - y) := by
    rw [← neg_sub, ← neg_one_smul ℝ, nrm_smul]; simp
  have le' : size M (unflat y - unflat y') ≤ 10 * (c / 100000000) * dts.sum := by
    change nrm (eform M) (y - y') ≤ _
    rw [e1]; exact le
  linarith

end Dgtd.Par

namespace Dgtd.Galerkin
open MvPolynomial Spec Dgtd.Op Dgtd.Op.Spec Dgtd.Par Dgtd.Par.Spec
open Dgtd.Implicit Dgtd.TimeInt.Spec Dgtd.Super.Spec Dgtd.Frame
open Dgtd.Config (Material)
open scoped ContDiff

/-- **C153**, a run of an implicit integrator with any steps; `A` is the matrix of the operator, as the code assembles it. -/
theorem C153_implicit (n p : Nat) (ρ m0 m1 Λ α : ℝ) (hm0 : 0 < m0) (hm1 : m0 ≤ m1) (hΛ : 0 ≤ Λ) (hα : 0 ≤ α) :
    ∃ K, 0 ≤ K ∧ ∀ (ι : Type) [Fintype ι] [DecidableEq ι] (S : Setup n ι) (ms : List (Int × Material ℝ)) (h B T : ℝ) (tot : Elem n ι ℝ → Bool)
      (G : Solution n ι) (ws : List (Wave n)) (node : Elem n ι ℝ → Nat → Fin (n + 1) → ℝ) (tf : MeshFace n ι → Bool) (sub : List ι)
      (sfSub : Option (List ι)), S.alpha = α → Scatters S ms p ρ m0 m1 Λ h B T tot G ws node → Surface S tf sub sfSub tot →
      ∃ P c, S.fem ms = .ok P ∧ 0 ≤ c ∧
        ∀ A : Matrix (Slot ι) (Slot ι) ℝ, (∀ u : State ι ℝ, A.mulVec (flat u) = flat (globalMult P.prob u)) →
        ∀ waves : ℝ → List (State ι ℝ), (∀ t, SampledWaves S node ws t (waves t)) →
        ∀ x : State ι ℝ, Sampled S node (stored tot G ws) 0 x → ∀ (q : Sdirk ℝ), Ideal33 q → ∀ o : TimeInt.Ode, o ≠ .rk4 →
          ∃ Ct, ∀ (H : ℝ) (dts : List ℝ), 0 ≤ H → H ≤ 1 → (∀ dt ∈ dts, 0 ≤ dt ∧ dt ≤ H) → dts.sum ≤ T →
            ∃ y s, TimeInt.run q o (TimeInt.globalTdo A fun t => flat (sourceTerm (S.source P tf sub sfSub) (waves t))) dts (flat x) 0 fresh =
                some (flat y, dts.sum, s) ∧
              ∀ z, Sampled S node (stored tot G ws) dts.sum z →
                √(fieldEnergy S ms (y - z)) ≤ K * (1 + dts.sum) * √(volume S) * (B * h ^ p) + (Ct * H ^ order o + c * dts.sum / 100000000) := by
  obtain ⟨L, K, hL0, hK0, hK, hL⟩ := wave_const n p ρ m0 m1 Λ α hΛ
  refine ⟨K, hK0, fun ι _ _ S ms h B T tot G ws node tf sub sfSub ha r hsf => ?_⟩
  subst ha
  have hP := passive_of (scatters_smooth r) hα
  have eP := source_prob (tf := tf) (sub := sub) (sfSub := sfSub) S ms
  obtain ⟨c, hc0, hc⟩ := C128_implicit (S.source (femOf S ms) tf sub sfSub) (massOf S ms) (by rw [eP]; exact hP.good) hα hP.sig hP.pos
  refine ⟨femOf S ms, c, fem_ok S ms r.materials, hc0, fun A hA waves hs x hx q hq o ho => ?_⟩
  have hsm := fun f d i => source_smooth r hs (S.source (femOf S ms) tf sub sfSub) f d i
  obtain ⟨⟨u, hu0, hu⟩, -⟩ := TimeInt.C122_solution (femOf S ms).prob (massOf S ms) hP.good hα hP.sig hP.pos _
    (fun f d i => source_cont (S.source (femOf S ms) tf sub sfSub) hsm f d i) 0 x
  have h1 : ContDiff ℝ ∞ fun t => sourceField (S.source (femOf S ms) tf sub sfSub) (waves t) :=
    contDiff_pi.2 fun f => contDiff_pi.2 fun d => contDiff_pi.2 fun i => hsm f d i
  have h2 := (LinearMap.toContinuousLinearMap (applyL (sourceBlocks (S.source (femOf S ms) tf sub sfSub)
    (S.source (femOf S ms) tf sub sfSub).tfFaces))).contDiff.comp h1
  obtain ⟨Ct, hCt⟩ := TimeInt.C122_converges_implicit q hq (femOf S ms).prob (massOf S ms) hP.good hα hP.sig hP.pos A hA o ho _
    (fun f d i => ((contDiff_pi.1 (contDiff_pi.1 (contDiff_pi.1 h2 f) d) i).of_le (by norm_cast; exact le_top)).neg) u hu 0 T
  refine ⟨Ct, fun H dts hH0 hH hdts hT => ?_⟩
  obtain ⟨y, s, e, hy⟩ := hCt H dts hH0 hH hdts hT
  obtain ⟨y1, y', s1, s', e1, e', hy'⟩ := hc A (by rw [eP]; exact hA) q hq o ho waves dts (fun d hd => (hdts d hd).1) x 0
  rw [hu0] at e
  have ee := e.symm.trans e1
  obtain rfl : y = y1 := congrArg unflat (Prod.mk.inj (Option.some.inj ee)).1
  rw [zero_add] at e' hy
  refine ⟨y', s', e', fun z hz => ?_⟩
  rw [← energy_eq r.mesh, hK]
  have hn : 0 ≤ dts.sum := List.sum_nonneg fun d hd => (hdts d hd).1
  have hu : ∀ t f d i, HasDerivAt (fun s => u s f d i) (globalMult (femOf S ms).prob (u t) f d i -
      applyBlocks (sourceBlocks (S.source (femOf S ms) tf sub sfSub) (S.source (femOf S ms) tf sub sfSub).tfFaces)
        (sourceField (S.source (femOf S ms) tf sub sfSub) (waves t)) f d i) t := fun t f d i => (hu t f d i).congr_deriv (sub_eq_add_neg _ _).symm
  have e3 := Super.size_tri hP y' y (u dts.sum)
  have e4 : size (massOf S ms) (y' - y) = size (massOf S ms) (y - y') := by
    change TimeInt.nrm (TimeInt.eform (massOf S ms)) (flat y' - flat y) = TimeInt.nrm (TimeInt.eform (massOf S ms)) (flat y - flat y')
    rw [← neg_sub, ← neg_one_smul ℝ, TimeInt.nrm_smul]
    simp
  exact wave_error r hsf hm0 hm1 hΛ hα hL0 (hL r.mesh.simplicial.dim) hs hu (by rw [hu0]; exact hx) hn hT (by rw [e4] at e3; linarith) hz

end Dgtd.Galerkin
