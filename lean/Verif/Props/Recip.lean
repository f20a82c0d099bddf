/-
C135: reciprocity.
-/
import Verif.Lemmas.OpRecip
import Verif.Lemmas.TimeIntRecip
import Verif.Props.Local

set_option linter.unusedSectionVars false

namespace Dgtd.Recip

open Op Op.Spec TimeInt TimeInt.Spec Implicit Frame

variable {ι : Type} [Fintype ι] [DecidableEq ι]

section
variable {K : Type} [Field K] [LinearOrder K] [IsStrictOrderedRing K]

/-- **C135**: the rate that the shape `v` causes, read with the shape `u`, is the rate that `u` causes, read with `v`. -/
theorem C135_operator (P : Prob ι K) (M : FieldT → Matrix ι ι K) (h : Op.Spec.Good P M) (hs : P.Msig.transpose = P.Msig)
    (u v : State ι K) : reading M u (globalMult P v) = reading M v (globalMult P u) := reading_symm_mult P h hs u v

end

/-- The reading as a form on the vectors of unknowns. -/
noncomputable def readForm (M : FieldT → Matrix ι ι ℝ) : (Slot ι → ℝ) →ₗ[ℝ] (Slot ι → ℝ) →ₗ[ℝ] ℝ :=
  LinearMap.mk₂ ℝ (fun x y => reading M (unflat x) (unflat y))
    (by
      intro x x' y
      simp only [reading, ← Finset.sum_add_distrib]
      apply Finset.sum_congr rfl
      intro d _
      have e : ∀ f, unflat (x + x') f d = unflat x f d + unflat x' f d := fun f => rfl
      rw [e, e, add_dotProduct, add_dotProduct]
      ring)
    (by
      intro c x y
      simp only [reading, smul_eq_mul, Finset.mul_sum]
      apply Finset.sum_congr rfl
      intro d _
      have e : ∀ f, unflat (c • x) f d = c • unflat x f d := fun f => rfl
      rw [e, e, smul_dotProduct, smul_dotProduct, smul_eq_mul, smul_eq_mul]
      ring)
    (by
      intro x y y'
      simp only [reading, ← Finset.sum_add_distrib]
      apply Finset.sum_congr rfl
      intro d _
      have e : ∀ f, unflat (y + y') f d = unflat y f d + unflat y' f d := fun f => rfl
      rw [e, e, Matrix.mulVec_add, Matrix.mulVec_add, dotProduct_add, dotProduct_add]
      ring)
    (by
      intro c x y
      simp only [reading, smul_eq_mul, Finset.mul_sum]
      apply Finset.sum_congr rfl
      intro d _
      have e : ∀ f, unflat (c • y) f d = c • unflat y f d := fun f => rfl
      rw [e, e, Matrix.mulVec_smul, Matrix.mulVec_smul, dotProduct_smul, dotProduct_smul, smul_eq_mul, smul_eq_mul]
      ring)

theorem readForm_apply (M : FieldT → Matrix ι ι ℝ) (x y : Slot ι → ℝ) : readForm M x y = reading M (unflat x) (unflat y) := rfl

theorem readForm_symm {M : FieldT → Matrix ι ι ℝ} (h : ∀ f, (M f).transpose = M f) (x y : Slot ι → ℝ) :
    readForm M x y = readForm M y x := by
  have hsym : ∀ f, ∀ v w : ι → ℝ, v ⬝ᵥ (M f).mulVec w = w ⬝ᵥ (M f).mulVec v := by
    intro f v w
    rw [Matrix.dotProduct_mulVec, ← Matrix.mulVec_transpose, h f, dotProduct_comm]
  simp only [readForm_apply, reading]
  apply Finset.sum_congr rfl
  intro d _
  rw [hsym .E, hsym .H]

/-- **C135**: a transmitter of the shape `w` and a receiver of the shape `r` can change places: with every integrator, any steps, any
pulse `g` and any initial amplitude `a`, the receiver reads the same. -/
theorem C135_run (q : Sdirk ℝ) (hq : Ideal33 q) (P : Prob ι ℝ) (M : FieldT → Matrix ι ι ℝ) (hP : Passive P M)
    (hs : P.Msig.transpose = P.Msig) (A : Matrix (Slot ι) (Slot ι) ℝ) (hA : ∀ u : State ι ℝ, A.mulVec (flat u) = flat (globalMult P u))
    (w r : State ι ℝ) (g : ℝ → ℝ) (a : ℝ) (o : Ode) (dts : List ℝ) (hdts : ∀ dt ∈ dts, 0 ≤ dt) (t : ℝ) :
    ∃ y y' c c', run q o (globalTdo A fun t => g t • flat w) dts (a • flat w) t fresh = some (flat y, t + dts.sum, c) ∧
      run q o (globalTdo A fun t => g t • flat r) dts (a • flat r) t fresh = some (flat y', t + dts.sum, c') ∧
      reading M r y = reading M w y' := by
  have hb := readForm_symm hP.good.symm
  have hbA : ∀ x y, readForm M x (A.mulVecLin y) = readForm M y (A.mulVecLin x) := by
    intro x y
    rw [readForm_apply, readForm_apply, Matrix.mulVecLin_apply, Matrix.mulVecLin_apply, ← flat_unflat x, ← flat_unflat y, hA, hA]
    exact reading_symm_mult P hP.good hs _ _
  obtain ⟨y, y', c, c', e, e', ht⟩ := run_tied hb hbA (eform_diss hP.good hP.alpha hP.sig hP.pos hA) (eform_pos hP.pos) hq
    (global_solves hP.good hP.alpha hP.sig hP.pos hA _) (global_solves hP.good hP.alpha hP.sig hP.pos hA _)
    (src := fun t => g t • flat w) (src' := fun t => g t • flat r) (w := flat w) (r := flat r) (fun t => Tied.self hb (g t)) o dts
    (a • flat w) (a • flat r) t fresh fresh hdts (Tied.self hb a) (good_fresh A) (good_fresh A)
  exact ⟨unflat y, unflat y', c, c', e, e', ht.reads⟩

/-- Transmitter and receiver of any shape on the line. -/
example (q : Sdirk ℝ) (hq : Ideal33 q) (A : Matrix (Slot (Fin 4)) (Slot (Fin 4)) ℝ)
    (hA : ∀ u : State (Fin 4) ℝ, A.mulVec (flat u) = flat (globalMult (line ℝ 1 none .PEC .SMA) u)) (o : Ode)
    (w r : State (Fin 4) ℝ) :
    ∃ y y' c c', run q o (globalTdo A fun t => Real.sin t • flat w) [1, 1, 1] ((0 : ℝ) • flat w) 0 fresh = some (flat y, 0 + [1, 1, 1].sum, c) ∧
      run q o (globalTdo A fun t => Real.sin t • flat r) [1, 1, 1] ((0 : ℝ) • flat r) 0 fresh = some (flat y', 0 + [1, 1, 1].sum, c') ∧
      reading (fun _ => lineMass ℝ) r y = reading (fun _ => lineMass ℝ) w y' :=
  C135_run q hq _ _ (line_passive 1 (by norm_num) none (by simp) _ _) (by simp [line]) A hA w r Real.sin 0 o [1, 1, 1] (by
      intro dt h
      simp only [List.mem_cons, List.not_mem_nil, or_false] at h
      rcases h with rfl | rfl | rfl <;> norm_num) 0

/-- Neither side of the theorem is always zero: shapes at both ends of the same element act on each other. -/
example : ∃ w r : State (Fin 4) ℚ, reading (fun _ => lineMass ℚ) r (globalMult (line ℚ 1 none .PEC .SMA) w) ≠ 0 :=
  ⟨lineU, fun f d i => if f = .H ∧ d = 2 ∧ i = 0 then 1 else 0, by decide +kernel⟩

end Dgtd.Recip
