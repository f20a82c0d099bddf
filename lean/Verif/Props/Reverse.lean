/-
C170: the film played backwards.
-/
import Verif.Spec.OpReverse
import Verif.Lemmas.OpRecip
import Verif.Lemmas.TimeIntReverse
import Verif.Props.Local

set_option linter.unusedSectionVars false

namespace Dgtd.Reverse

open Op Op.Spec TimeInt TimeInt.Spec Implicit Frame

variable {ι : Type} [Fintype ι] [DecidableEq ι]

section
variable {K : Type} [Field K] [LinearOrder K] [IsStrictOrderedRing K]

lemma reversed_reversed (u : State ι K) : reversed (reversed u) = u := by
  funext f d i
  cases f
  · rfl
  · exact neg_neg _

lemma neg_dot_left (M : Matrix ι ι K) (x y : ι → K) : (fun i => -x i) ⬝ᵥ M.mulVec y = -(x ⬝ᵥ M.mulVec y) := by
  have : (fun i => -x i) = -x := rfl
  rw [this, neg_dotProduct]

lemma neg_dot_right (M : Matrix ι ι K) (x y : ι → K) : x ⬝ᵥ M.mulVec (fun i => -y i) = -(x ⬝ᵥ M.mulVec y) := by
  have : (fun i => -y i) = -y := rfl
  rw [this, Matrix.mulVec_neg, dotProduct_neg]

lemma reading_eq_left (M : FieldT → Matrix ι ι K) (u v : State ι K) : reading M u v = energyRate M (reversed u) v := by
  unfold reading energyRate
  refine Finset.sum_congr rfl fun d _ => ?_
  show _ = u .E d ⬝ᵥ (M .E).mulVec (v .E d) + (fun i => -u .H d i) ⬝ᵥ (M .H).mulVec (v .H d)
  rw [neg_dot_left]
  ring

lemma reading_eq_right (M : FieldT → Matrix ι ι K) (u v : State ι K) : reading M u v = energyRate M u (reversed v) := by
  unfold reading energyRate
  refine Finset.sum_congr rfl fun d _ => ?_
  show _ = u .E d ⬝ᵥ (M .E).mulVec (v .E d) + u .H d ⬝ᵥ (M .H).mulVec (fun i => -v .H d i)
  rw [neg_dot_right]
  ring

lemma energy_reversed (M : FieldT → Matrix ι ι K) (u : State ι K) : energy M (reversed u) = energy M u := by
  unfold energy
  congr 1
  refine Finset.sum_congr rfl fun d _ => ?_
  show u .E d ⬝ᵥ (M .E).mulVec (u .E d) + (fun i => -u .H d i) ⬝ᵥ (M .H).mulVec (fun i => -u .H d i) = _
  rw [neg_dot_left, neg_dot_right, neg_neg]

/-- Fields without a part in any shape are zero. -/
lemma eq_zero_of_rates {M N : FieldT → Matrix ι ι K} (hM : ∀ f, M f * N f = 1) {w : State ι K} (h : ∀ u, energyRate M u w = 0) : w = 0 := by
  have key : ∀ f d, (M f).mulVec (w f d) = 0 := by
    intro f d
    funext i
    have := h fun g e j => if g = f ∧ e = d ∧ j = i then 1 else 0
    unfold energyRate at this
    rw [Finset.sum_eq_single d] at this
    · cases f
      · simpa [dotProduct, Finset.sum_ite_eq] using this
      · simpa [dotProduct, Finset.sum_ite_eq] using this
    · intro e _ he
      simp [dotProduct, he]
    · simp
  funext f d
  have := congrArg (N f).mulVec (key f d)
  rw [Matrix.mulVec_mulVec, mul_eq_one_comm.1 (hM f), Matrix.one_mulVec, Matrix.mulVec_zero] at this
  exact this

/-- **C170**: without upwinding, conductivity or absorbing boundaries, the fields played backwards change at the opposite rate. -/
theorem C170_operator (P : Prob ι K) (M : FieldT → Matrix ι ι K) (h : Op.Spec.Good P M) (ha : P.alpha = 0) (hs : P.Msig = 0)
    (hsma : (∀ q ∈ P.bdr, q.1 ≠ some .SMA) ∧ ∀ q ∈ P.interior, q.1 ≠ some .SMA) (u : State ι K) :
    globalMult P (reversed u) = -reversed (globalMult P u) := by
  have skew : ∀ x y, energyRate M x (globalMult P y) = -energyRate M y (globalMult P x) := by
    intro x y
    have e := C02_centred_conserves P M h ha hs hsma ((1 : K) • x + (1 : K) • y)
    rw [globalMult_comb, energyRate_lin_left, energyRate_lin_right, energyRate_lin_right,
      C02_centred_conserves P M h ha hs hsma x, C02_centred_conserves P M h ha hs hsma y] at e
    linear_combination e
  have zero : globalMult P (reversed u) + reversed (globalMult P u) = 0 := by
    apply eq_zero_of_rates h.inv
    intro x
    have e := energyRate_lin_right M 1 1 (globalMult P (reversed u)) (reversed (globalMult P u)) x
    rw [one_smul, one_smul, one_mul, one_mul] at e
    rw [e, ← reading_eq_right, skew, ← reading_eq_left, reading_symm_mult P h (by rw [hs]; simp)]
    ring
  exact eq_neg_of_add_eq_zero_left zero

end

/-- The reversal as a linear map. -/
noncomputable def reversedL : (Slot ι → ℝ) →ₗ[ℝ] (Slot ι → ℝ) where
  toFun x := flat (reversed (unflat x))
  map_add' x y := by
    funext ⟨f, d, i⟩
    cases f
    · rfl
    · exact neg_add _ _
  map_smul' c x := by
    funext ⟨f, d, i⟩
    cases f
    · rfl
    · exact (mul_neg c _).symm

/-- **C170**: the midpoint and the trapezoidal rules can be played backwards: from the last fields, with the magnetic field reversed, the
same steps in the opposite order and the sources played backwards, a run ends in the first fields with the magnetic field reversed,
exactly and whatever the steps. -/
theorem C170_run (q : Sdirk ℝ) (hq : Ideal33 q) (P : Prob ι ℝ) (M : FieldT → Matrix ι ι ℝ) (hP : Passive P M) (ha : P.alpha = 0)
    (hs : P.Msig = 0) (hsma : (∀ r ∈ P.bdr, r.1 ≠ some .SMA) ∧ ∀ r ∈ P.interior, r.1 ≠ some .SMA) (A : Matrix (Slot ι) (Slot ι) ℝ)
    (hA : ∀ u : State ι ℝ, A.mulVec (flat u) = flat (globalMult P u)) (o : Ode) (ho : o = .implicitMidpoint ∨ o = .trapezoidal)
    (j : ℝ → State ι ℝ) (dts : List ℝ) (hdts : ∀ dt ∈ dts, 0 ≤ dt) (u : State ι ℝ) (t t' : ℝ) :
    ∃ y c c', run q o (globalTdo A fun s => flat (j s)) dts (flat u) t fresh = some (flat y, t + dts.sum, c) ∧
      run q o (globalTdo A fun s => flat (-reversed (j (t + dts.sum - (s - t'))))) dts.reverse (flat (reversed y)) t' fresh =
        some (flat (reversed u), t' + dts.sum, c') := by
  have hL : ∀ x, reversedL (A.mulVecLin x) = -A.mulVecLin (reversedL x) := by
    intro x
    rw [Matrix.mulVecLin_apply, Matrix.mulVecLin_apply]
    show flat (reversed (unflat (A.mulVec (flat (unflat x))))) = -A.mulVec (flat (reversed (unflat x)))
    rw [hA, hA, C170_operator P M hP.good ha hs hsma]
    funext s
    exact (neg_neg _).symm
  obtain ⟨y, c, c', e, e', -⟩ := run_reverse hq (T := t + dts.sum + t')
    (global_solves hP.good hP.alpha hP.sig hP.pos hA fun s => flat (j s))
    (global_solves hP.good hP.alpha hP.sig hP.pos hA fun s => flat (-reversed (j (t + dts.sum - (s - t'))))) hL (by
      intro s
      have : t + dts.sum + t' - s = t + dts.sum - (s - t') := by ring
      rw [this]
      rfl)
    (eform_diss hP.good hP.alpha hP.sig hP.pos hA) (eform_pos hP.pos) ho dts (flat u) t t' fresh fresh hdts (good_fresh A) (good_fresh A) rfl
  exact ⟨unflat y, c, c', e, e'⟩

/-- **C170** in continuous time: a solution played backwards is a solution, with its sources played backwards. -/
theorem C170_solution (P : Prob ι ℝ) (M : FieldT → Matrix ι ι ℝ) (h : Op.Spec.Good P M) (ha : P.alpha = 0) (hs : P.Msig = 0)
    (hsma : (∀ r ∈ P.bdr, r.1 ≠ some .SMA) ∧ ∀ r ∈ P.interior, r.1 ≠ some .SMA) (j u : ℝ → State ι ℝ) (T : ℝ)
    (hu : ∀ t f d i, HasDerivAt (fun s => u s f d i) (globalMult P (u t) f d i + j t f d i) t) (t : ℝ) (f : FieldT) (d : Dir) (i : ι) :
    HasDerivAt (fun s => reversed (u (T - s)) f d i)
      (globalMult P (reversed (u (T - t))) f d i + (-reversed (j (T - t))) f d i) t := by
  rw [C170_operator P M h ha hs hsma]
  have inner : HasDerivAt (fun s : ℝ => T - s) (-1) t := by simpa using (hasDerivAt_id t).const_sub T
  have e := (hu (T - t) f d i).comp t inner
  cases f
  · show HasDerivAt (fun s => u (T - s) .E d i) (-globalMult P (u (T - t)) .E d i + -j (T - t) .E d i) t
    have k : -globalMult P (u (T - t)) .E d i + -j (T - t) .E d i = (globalMult P (u (T - t)) .E d i + j (T - t) .E d i) * -1 := by ring
    rw [k]
    exact e
  · show HasDerivAt (fun s => -u (T - s) .H d i) (- -globalMult P (u (T - t)) .H d i + - -j (T - t) .H d i) t
    have k : - -globalMult P (u (T - t)) .H d i + - -j (T - t) .H d i = -((globalMult P (u (T - t)) .H d i + j (T - t) .H d i) * -1) := by
      ring
    rw [k]
    exact e.neg

/-- **C170**, the other way: a run that lost energy does not come back, with any implicit integrator and any steps. -/
theorem C170_lost (q : Sdirk ℝ) (hq : Ideal33 q) (P : Prob ι ℝ) (M : FieldT → Matrix ι ι ℝ) (hP : Passive P M)
    (A : Matrix (Slot ι) (Slot ι) ℝ) (hA : ∀ u : State ι ℝ, A.mulVec (flat u) = flat (globalMult P u)) (o : Ode) (ho : o ≠ .rk4)
    (dts : List ℝ) (hdts : ∀ dt ∈ dts, 0 ≤ dt) (u y : State ι ℝ) (hy : energy M y < energy M u) (t : ℝ) :
    ∃ z c, run q o (globalTdo A fun _ => 0) dts (flat (reversed y)) t fresh = some (flat z, t + dts.sum, c) ∧ z ≠ reversed u := by
  obtain ⟨z, c, e, le⟩ := C118_energy q hq P M hP.good hP.alpha hP.sig hP.pos A hA o ho dts hdts (reversed y) t
  refine ⟨z, c, e, fun he => ?_⟩
  rw [he, energy_reversed, energy_reversed] at le
  exact absurd hy (not_lt.2 le)

/-- A cavity with perfect walls, three steps of three sizes, driven. -/
example (q : Sdirk ℝ) (hq : Ideal33 q) (A : Matrix (Slot (Fin 4)) (Slot (Fin 4)) ℝ)
    (hA : ∀ u : State (Fin 4) ℝ, A.mulVec (flat u) = flat (globalMult (line ℝ 0 none .PEC .PMC) u)) (u w : State (Fin 4) ℝ) :
    ∃ y c c', run q .trapezoidal (globalTdo A fun s => flat (Real.sin s • w)) [1, 2, 3] (flat u) 0 fresh = some (flat y, 0 + [1, 2, 3].sum, c) ∧
      run q .trapezoidal (globalTdo A fun s => flat (-reversed (Real.sin (0 + [1, 2, 3].sum - (s - 7)) • w))) [3, 2, 1] (flat (reversed y)) 7
        fresh = some (flat (reversed u), 7 + [1, 2, 3].sum, c') :=
  C170_run q hq (line ℝ 0 none .PEC .PMC) _ (line_passive 0 le_rfl none (by simp) _ _) rfl rfl
    ⟨by simp [line], by simp [line]⟩ A hA .trapezoidal (.inr rfl) (fun s => Real.sin s • w) [1, 2, 3] (by
      intro dt h
      simp only [List.mem_cons, List.not_mem_nil, or_false] at h
      rcases h with rfl | rfl | rfl <;> norm_num) u 0 7

/-- Each of the three is needed: upwinding, conductivity and absorbing boundaries break the symmetry. -/
theorem C170_violated :
    globalMult (line ℚ 1 none .PEC .PEC) (reversed lineU) ≠ -reversed (globalMult (line ℚ 1 none .PEC .PEC) lineU) ∧
    globalMult (line ℚ 0 none .SMA .PEC) (reversed lineU) ≠ -reversed (globalMult (line ℚ 0 none .SMA .PEC) lineU) ∧
    globalMult { line ℚ 0 none .PEC .PEC with Msig := lineMass ℚ } (reversed lineU) ≠
      -reversed (globalMult { line ℚ 0 none .PEC .PEC with Msig := lineMass ℚ } lineU) := by
  refine ⟨?_, ?_, ?_⟩ <;> decide +kernel

end Dgtd.Reverse
