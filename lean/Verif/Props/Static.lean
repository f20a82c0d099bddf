/-
C175: static fields stand still.
-/
import Verif.Lemmas.TimeIntShift
import Verif.Props.Frame
import Verif.Props.Charge
import Verif.Props.StraightCharge

set_option linter.unusedSectionVars false

namespace Dgtd.Op
open Dgtd.Op.Spec Dgtd.Implicit Dgtd.TimeInt Dgtd.TimeInt.Spec

variable {ι : Type} [Fintype ι] [DecidableEq ι]

/-- A state whose tested rates are all zero has no rate. -/
lemma mult_zero_of {P : Prob ι ℝ} {M : FieldT → Matrix ι ι ℝ} (h : Op.Spec.Good P M) {w : State ι ℝ}
    (hw : ∀ f d v, weak P w f d v = 0) : globalMult P w = 0 := by
  funext f d
  have hz : (M f).mulVec (globalMult P w f d) = 0 := by
    funext i
    have := weak_test P h w f d (Pi.single i 1)
    rw [hw, single_one_dotProduct] at this
    exact this
  have hi : P.Minv f * M f = 1 := mul_eq_one_comm.1 (h.inv f)
  have := congrArg (P.Minv f).mulVec hz
  rw [Matrix.mulVec_mulVec, hi, Matrix.one_mulVec, Matrix.mulVec_zero] at this
  exact this

lemma run_static {q : Sdirk ℝ} (hq : Ideal33 q) {P : Prob ι ℝ} {M : FieldT → Matrix ι ι ℝ} (hP : Passive P M)
    {A : Matrix (Slot ι) (Slot ι) ℝ} (hA : ∀ u : State ι ℝ, A.mulVec (flat u) = flat (globalMult P u)) {src : ℝ → Slot ι → ℝ} {w : State ι ℝ}
    (hw : globalMult P w = 0) (o : Ode) (dts : List ℝ) (hdts : ∀ dt ∈ dts, 0 ≤ dt) (u : State ι ℝ) (t : ℝ) :
    ∃ y c c', run q o (globalTdo A src) dts (flat u) t fresh = some (flat y, t + dts.sum, c) ∧
      run q o (globalTdo A src) dts (flat (u + w)) t fresh = some (flat (y + w), t + dts.sum, c') := by
  have hz : A.mulVecLin (flat w) = 0 := by
    rw [Matrix.mulVecLin_apply, hA, hw]
    rfl
  obtain ⟨y, c, c', e, e'⟩ := run_shift hq (global_solves hP.good hP.alpha hP.sig hP.pos hA src) hz
    (eform_diss hP.good hP.alpha hP.sig hP.pos hA) (Frame.eform_pos hP.pos) o dts (flat u) t fresh fresh hdts (good_fresh A) (good_fresh A)
  exact ⟨unflat y, c, c', e, e'⟩

end Dgtd.Op

namespace Dgtd.Galerkin
open MvPolynomial Spec Dgtd.Op Dgtd.Op.Spec
open Dgtd.Implicit Dgtd.TimeInt.Spec Dgtd.Recip
open Dgtd.Config (Material)

variable {n : Nat} {ι : Type} [Fintype ι] [DecidableEq ι] {S : Setup n ι} {p m : Nat}

/-- **C175**: the gradient of a continuous potential that is level on the walls the field meets at right angles, and for an electric field also
inside conductors, has no rate. -/
theorem C175_still (h : ValidMesh S p m) (ms : List (Int × Material ℝ)) (hm : ValidMaterials S ms)
    (hw : ∀ q ∈ S.interior ++ S.bdr, ∀ x ∈ q.2.rule, 0 ≤ x.1) (f : FieldT) (φ : Test n ι) (hφ : Testing S f φ)
    (hs : f = .E → ∀ c ∈ S.cells, (materialOf ms c).sigma ≠ 0 → ∀ d, ddx d (φ c.e) = 0) (w : State ι ℝ) (hc : Carries S (gradient f φ) w) :
    ∃ F, S.fem ms = .ok F ∧ globalMult F.prob w = 0 := by
  refine ⟨femOf S ms, fem_ok S ms hm, mult_zero_of (good_fem h ms hm hw) fun g d v => ?_⟩
  rw [weak_gradient h ms hφ hc]
  cases g with
  | H => simp [lossTerm]
  | E =>
    change -(v ⬝ᵥ (massMatrix (S.cells.map fun c => (c, (materialOf ms c).sigma))).mulVec (w .E d)) = 0
    rw [mass_form h, neg_eq_zero]
    refine sum_zero_of _ _ fun c hc' => ?_
    by_cases h0 : (materialOf ms c).sigma = 0
    · rw [h0, zero_mul]
    · rw [hc c hc']
      by_cases hf : f = .E
      · simp [gradient, hs hf c hc' h0 d]
      · simp [gradient, Ne.symm hf]

/-- **C175**: with every integrator, whatever the steps and the sources, adding such a field at the start adds the same field at the end. -/
theorem C175_run (h : ValidMesh S p m) (ms : List (Int × Material ℝ)) (hm : ValidMaterials S ms) (hal : 0 ≤ S.alpha)
    (hw : ∀ q ∈ S.interior ++ S.bdr, ∀ x ∈ q.2.rule, 0 ≤ x.1) (f : FieldT) (φ : Test n ι) (hφ : Testing S f φ)
    (hs : f = .E → ∀ c ∈ S.cells, (materialOf ms c).sigma ≠ 0 → ∀ d, ddx d (φ c.e) = 0) (w : State ι ℝ) (hc : Carries S (gradient f φ) w)
    (j : ℝ → State ι ℝ) (q : Sdirk ℝ) (hi : Ideal33 q) :
    ∃ F A, S.fem ms = .ok F ∧ (∀ u : State ι ℝ, A.mulVec (flat u) = flat (globalMult F.prob u)) ∧
      ∀ (u : State ι ℝ) (o : TimeInt.Ode) (dts : List ℝ) (_ : ∀ dt ∈ dts, 0 ≤ dt) (t : ℝ), ∃ y c c',
        TimeInt.run q o (TimeInt.globalTdo A fun t => flat (j t)) dts (flat u) t fresh = some (flat y, t + dts.sum, c) ∧
        TimeInt.run q o (TimeInt.globalTdo A fun t => flat (j t)) dts (flat (u + w)) t fresh = some (flat (y + w), t + dts.sum, c') := by
  obtain ⟨F, e0, hz⟩ := C175_still h ms hm hw f φ hφ hs w hc
  obtain ⟨F', M, e, hg, hal', he, hp, hsig⟩ := good_of h ms hm hw
  rw [e0] at e
  obtain rfl := Except.ok.inj e
  obtain ⟨A, hA⟩ := exists_matrix F.prob
  exact ⟨F, A, e0, hA, fun u o dts hd t => run_static hi
    ⟨hg, by change 0 ≤ F.alpha; rw [hal']; exact hal, hsig, fun u hu => by rw [he]; exact hp u hu⟩ hA hz o dts hd u t⟩

end Dgtd.Galerkin

namespace Dgtd.Straight
open MvPolynomial Spec Dgtd.Op Dgtd.Op.Spec
open Dgtd.Galerkin (Poly Elem massMatrix sum_zero_of)
open Dgtd.Galerkin.Spec (onElem materialOf Test gradient ddx)
open Dgtd.Implicit Dgtd.TimeInt.Spec Dgtd.Recip
open Dgtd.Config (Material)

variable {n : Nat} {ι : Type} [Fintype ι] [DecidableEq ι] {S : Setup n ι} {p : Nat}

/-- **C175** on straight meshes that may have quadrilaterals and hexahedra. -/
theorem C175_still (h : ValidMesh S p) (ms : List (Int × Material ℝ)) (hm : ValidMaterials S ms) (hw : ∀ f ∈ faces S, ∀ x ∈ f.rule, 0 ≤ x.1)
    (f : FieldT) (φ : Test n ι) (hφ : Testing S f φ)
    (hs : f = .E → ∀ c ∈ S.cells, (materialOf ms c.toCell).sigma ≠ 0 → ∀ d, ddx d (φ c.e) = 0) (w : State ι ℝ) (hc : Carries S (gradient f φ) w) :
    ∃ P, S.prob ms = .ok P ∧ globalMult P w = 0 := by
  refine ⟨probOf S ms, prob_ok S ms hm, mult_zero_of (good_of h ms hm hw) fun g d v => ?_⟩
  rw [weak_gradient h ms hφ hc]
  cases g with
  | H => simp [lossTerm]
  | E =>
    change -(v ⬝ᵥ (massMatrix (weighted S fun c => (materialOf ms c.toCell).sigma)).mulVec (w .E d)) = 0
    rw [mass_form h, neg_eq_zero]
    simp only [← intl_eq]
    refine sum_zero_of _ _ fun c hc' => ?_
    by_cases h0 : (materialOf ms c.toCell).sigma = 0
    · rw [h0, zero_mul]
    · rw [hc c hc']
      by_cases hf : f = .E
      · simp [gradient, hs hf c hc' h0 d]
      · simp [gradient, Ne.symm hf]

theorem C175_run (h : ValidMesh S p) (ms : List (Int × Material ℝ)) (hm : ValidMaterials S ms) (hal : 0 ≤ S.alpha)
    (hw : ∀ f ∈ faces S, ∀ x ∈ f.rule, 0 ≤ x.1) (f : FieldT) (φ : Test n ι) (hφ : Testing S f φ)
    (hs : f = .E → ∀ c ∈ S.cells, (materialOf ms c.toCell).sigma ≠ 0 → ∀ d, ddx d (φ c.e) = 0) (w : State ι ℝ) (hc : Carries S (gradient f φ) w)
    (j : ℝ → State ι ℝ) (q : Sdirk ℝ) (hi : Ideal33 q) :
    ∃ P A, S.prob ms = .ok P ∧ (∀ u : State ι ℝ, A.mulVec (flat u) = flat (globalMult P u)) ∧
      ∀ (u : State ι ℝ) (o : TimeInt.Ode) (dts : List ℝ) (_ : ∀ dt ∈ dts, 0 ≤ dt) (t : ℝ), ∃ y c c',
        TimeInt.run q o (TimeInt.globalTdo A fun t => flat (j t)) dts (flat u) t fresh = some (flat y, t + dts.sum, c) ∧
        TimeInt.run q o (TimeInt.globalTdo A fun t => flat (j t)) dts (flat (u + w)) t fresh = some (flat (y + w), t + dts.sum, c') := by
  obtain ⟨P, e0, hz⟩ := C175_still h ms hm hw f φ hφ hs w hc
  have e := prob_ok S ms hm
  rw [e0] at e
  obtain rfl := Except.ok.inj e
  obtain ⟨A, hA⟩ := exists_matrix (probOf S ms)
  exact ⟨_, A, e0, hA, fun u o dts hd t => run_static hi
    ⟨good_of h ms hm hw, hal, sigma_nonneg h ms hm, fun u hu => by rw [energy_eq h]; exact fieldEnergy_pos h ms hm u hu⟩ hA hz o dts hd u t⟩

end Dgtd.Straight
