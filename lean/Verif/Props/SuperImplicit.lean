/-
C136 for plane waves with implicit integrators.
-/
import Verif.Props.Super
import Verif.Props.GalerkinSourceImplicit

set_option linter.unusedSectionVars false

namespace Dgtd.Super

open Spec Op Op.Spec TimeInt TimeInt.Spec Implicit Frame Par

variable {ι : Type} [Fintype ι] [DecidableEq ι]

/-- C136 for plane waves with implicit integrators, with what is missing: when waves are skipped, the response to all the waves
together differs from the sum of the responses to two groups of them by at most a constant of the case times the elapsed time times
`1e-8`, whatever the steps. -/
theorem C136_implicit_partial (C : Case ι ℝ) (M : FieldT → Matrix ι ι ℝ) (hP : Passive C.prob M) :
    ∃ c, 0 ≤ c ∧ ∀ A : Matrix (Slot ι) (Slot ι) ℝ, (∀ u : State ι ℝ, A.mulVec (flat u) = flat (globalMult C.prob u)) →
      ∀ (q : Sdirk ℝ), Ideal33 q → ∀ (o : Ode), o ≠ .rk4 → ∀ (waves waves' : ℝ → List (State ι ℝ)) (dts : List ℝ),
      (∀ dt ∈ dts, 0 ≤ dt) → ∀ (x x' : State ι ℝ) (t : ℝ), ∃ y y' y'' s s' s'',
        run q o (globalTdo A fun t => flat (sourceTerm C (waves t))) dts (flat x) t fresh = some (flat y, t + dts.sum, s) ∧
        run q o (globalTdo A fun t => flat (sourceTerm C (waves' t))) dts (flat x') t fresh = some (flat y', t + dts.sum, s') ∧
        run q o (globalTdo A fun t => flat (sourceTerm C (waves t ++ waves' t))) dts (flat (x + x')) t fresh =
          some (flat y'', t + dts.sum, s'') ∧
        size M (y'' - (y + y')) ≤ c * dts.sum / 100000000 := by
  have hs : ∀ v : ι → ℝ, 0 ≤ v ⬝ᵥ C.Msig.mulVec v := hP.sig
  have ha : 0 ≤ C.alpha := hP.alpha
  obtain ⟨c, hc0, hc⟩ := C128_implicit C M hP.good ha hs hP.pos
  refine ⟨3 * c, by positivity, ?_⟩
  intro A hA q hq o ho waves waves' dts hp x x' t
  obtain ⟨z, y, d, s, e1, e2, b1⟩ := hc A hA q hq o ho waves dts hp x t
  obtain ⟨z', y', d', s', e1', e2', b1'⟩ := hc A hA q hq o ho waves' dts hp x' t
  obtain ⟨z'', y'', d'', s'', e1'', e2'', b1''⟩ := hc A hA q hq o ho (fun t => waves t ++ waves' t) dts hp (x + x') t
  refine ⟨y, y', y'', s, s', s'', e2, e2', e2'', ?_⟩
  obtain ⟨w, w', k, k', k'', f, f', f''⟩ := C136_run q hq C.prob M hP A hA
    (fun t => -applyL (sourceBlocks C C.tfFaces) (sourceField C (waves t)))
    (fun t => -applyL (sourceBlocks C C.tfFaces) (sourceField C (waves' t))) x x' 1 1 o dts hp t
  have hF : (fun t => flat ((1 : ℝ) • -applyL (sourceBlocks C C.tfFaces) (sourceField C (waves t)) +
      (1 : ℝ) • -applyL (sourceBlocks C C.tfFaces) (sourceField C (waves' t)))) =
      fun t => flat fun f d i => -applyBlocks (sourceBlocks C C.tfFaces) (sourceField C (waves t ++ waves' t)) f d i := by
    funext t
    rw [one_smul, one_smul, sourceField_append, ← neg_add, ← map_add]
    rfl
  rw [hF, one_smul, one_smul, one_smul, one_smul] at f''
  have g := f.symm.trans e1
  have g' := f'.symm.trans e1'
  have g'' := e1''.symm.trans f''
  have p : w = z := by
    have := (Prod.mk.inj (Option.some.inj g)).1
    funext f d i; exact congrFun this (f, d, i)
  have p' : w' = z' := by
    have := (Prod.mk.inj (Option.some.inj g')).1
    funext f d i; exact congrFun this (f, d, i)
  have p'' : z'' = w + w' := by
    have := (Prod.mk.inj (Option.some.inj g'')).1
    funext f d i; exact congrFun this (f, d, i)
  subst p p' p''
  have hD := sform_diss hP.good ha hs hP.pos
  have tri := nrm_add_le hD.symm hD.nonneg
  have t1 := tri ((-1 : ℝ) • (w + w' - y'')) ((w - y) + (w' - y'))
  have t2 := tri (w - y) (w' - y')
  have e : (-1 : ℝ) • (w + w' - y'') + ((w - y) + (w' - y')) = y'' - (y + y') := by module
  rw [e, nrm_smul] at t1
  simp only [abs_neg, abs_one, one_mul] at t1
  have i1 : nrm (sform M) (w - y) = size M (w - y) := rfl
  have i2 : nrm (sform M) (w' - y') = size M (w' - y') := rfl
  have i3 : nrm (sform M) (w + w' - y'') = size M (w + w' - y'') := rfl
  have i4 : nrm (sform M) (y'' - (y + y')) = size M (y'' - (y + y')) := rfl
  rw [i1, i2] at t2
  rw [i3, i4] at t1
  linarith

/-- The hypotheses hold for the line of `C136_violated`. -/
example : Passive (rowCase (K := ℝ)).prob (fun _ => 1) := row_passive

end Dgtd.Super
