/-
C136: superposition.  C137: convergence in space and time.
-/
import Verif.Lemmas.TimeIntSuper
import Verif.Props.TimeIntDriven
import Verif.Props.Local
import Verif.Spec.Super

set_option linter.unusedSectionVars false

namespace Dgtd.Super

open Spec Op Op.Spec TimeInt TimeInt.Spec Implicit Frame Par
open Par.Spec (Neglects)

variable {ι : Type} [Fintype ι] [DecidableEq ι]

/-! ### superposition -/

/-- **C136**: with every integrator, the response to combined sources from combined initial fields is the combination of the
responses. -/
theorem C136_run (q : Sdirk ℝ) (hq : Ideal33 q) (P : Prob ι ℝ) (M : FieldT → Matrix ι ι ℝ) (hP : Passive P M)
    (A : Matrix (Slot ι) (Slot ι) ℝ) (hA : ∀ u : State ι ℝ, A.mulVec (flat u) = flat (globalMult P u))
    (src src' : ℝ → State ι ℝ) (x x' : State ι ℝ) (a b : ℝ) (o : Ode) (dts : List ℝ) (hdts : ∀ dt ∈ dts, 0 ≤ dt) (t : ℝ) :
    ∃ y y' c c' c'', run q o (globalTdo A fun t => flat (src t)) dts (flat x) t fresh = some (flat y, t + dts.sum, c) ∧
      run q o (globalTdo A fun t => flat (src' t)) dts (flat x') t fresh = some (flat y', t + dts.sum, c') ∧
      run q o (globalTdo A fun t => flat (a • src t + b • src' t)) dts (flat (a • x + b • x')) t fresh =
        some (flat (a • y + b • y'), t + dts.sum, c'') := by
  obtain ⟨y, y', c, c', c'', e, e', e''⟩ := run_comb hq (a := a) (b := b)
    (global_solves hP.good hP.alpha hP.sig hP.pos hA fun t => flat (src t))
    (global_solves hP.good hP.alpha hP.sig hP.pos hA fun t => flat (src' t))
    (global_solves hP.good hP.alpha hP.sig hP.pos hA fun t => flat (a • src t + b • src' t)) (fun t => rfl)
    (eform_diss hP.good hP.alpha hP.sig hP.pos hA) (eform_pos hP.pos) o dts (flat x) (flat x') t fresh fresh fresh hdts
    (good_fresh A) (good_fresh A) (good_fresh A)
  exact ⟨unflat y, unflat y', c, c', c'', e, e', e''⟩

section waves
variable {K : Type} [Field K] [LinearOrder K] [IsStrictOrderedRing K]

lemma foldl_waves (k : K) (g : State ι K → K) (ws : List (State ι K)) (s : K) :
    ws.foldl (fun s w => s + g w * k) s = s + ws.foldl (fun s w => s + g w * k) 0 := by
  induction ws generalizing s with
  | nil => simp
  | cons w ws ih =>
    rw [List.foldl_cons, List.foldl_cons, ih, ih (0 + _)]
    ring

lemma sourceField_append (C : Case ι K) (ws ws' : List (State ι K)) :
    sourceField C (ws ++ ws') = sourceField C ws + sourceField C ws' := by
  funext f d i
  simp only [sourceField, Pi.add_apply]
  split_ifs
  · rw [List.foldl_append, foldl_waves (tfsfSign C i) (fun w => w f d i) ws' (ws.foldl _ 0)]
  · simp

end waves

/-- C136 for plane waves, with what is missing: when waves are skipped, the response to all the waves together differs from the
sum of the responses to two groups of them by at most a constant of the case times the elapsed time times `1e-8` (explicit steps
within the bound of C119). -/
theorem C136_waves_partial (C : Case ι ℝ) (M : FieldT → Matrix ι ι ℝ) (hP : Passive C.prob M) :
    ∃ c, 0 ≤ c ∧ ∀ (L : ℝ), 0 ≤ L → (∀ u, energy M (globalMult C.prob u) ≤ L ^ 2 * energy M u) →
      ∀ (q : Sdirk ℝ) (S : Type) (s : S) (waves waves' : ℝ → List (State ι ℝ)) (dt last : ℝ), 0 ≤ last → last ≤ dt →
      dt * L ≤ 1 / 4 → ∀ (n : Nat) (x x' : State ι ℝ) (t : ℝ), ∃ y y' y'',
        run q .rk4 (explicitTdo fun t v => sourceRhs C (waves t) v) (List.replicate n dt ++ [last]) x t s =
          some (y, t + n * dt + last, s) ∧
        run q .rk4 (explicitTdo fun t v => sourceRhs C (waves' t) v) (List.replicate n dt ++ [last]) x' t s =
          some (y', t + n * dt + last, s) ∧
        run q .rk4 (explicitTdo fun t v => sourceRhs C (waves t ++ waves' t) v) (List.replicate n dt ++ [last]) (x + x') t s =
          some (y'', t + n * dt + last, s) ∧
        size M (y'' - (y + y')) ≤ c * (n * dt + last) / 100000000 := by
  have hs : ∀ v : ι → ℝ, 0 ≤ v ⬝ᵥ C.Msig.mulVec v := hP.sig
  have ha : 0 ≤ C.alpha := hP.alpha
  obtain ⟨c, hc0, hc⟩ := C128_one C M hP.good ha hs hP.pos
  refine ⟨3 * c, by positivity, ?_⟩
  intro L hL0 hL q S s waves waves' dt last h0 hl hdt n x x' t
  obtain ⟨z, y, e1, e2, b1⟩ := hc L hL0 hL q S s waves dt last h0 hl hdt n x t
  obtain ⟨z', y', e1', e2', b1'⟩ := hc L hL0 hL q S s waves' dt last h0 hl hdt n x' t
  obtain ⟨z'', y'', e1'', e2'', b1''⟩ := hc L hL0 hL q S s (fun t => waves t ++ waves' t) dt last h0 hl hdt n (x + x') t
  refine ⟨y, y', y'', e2, e2', e2'', ?_⟩
  have hF : ∀ (ws : ℝ → List (State ι ℝ)) (t : ℝ) (v : State ι ℝ), (explicitTdo (S := S) fun t v f d i => globalMult C.prob v f d i -
      applyBlocks (sourceBlocks C C.tfFaces) (sourceField C (ws t)) f d i).mult t v =
      opL C.prob v + -applyL (sourceBlocks C C.tfFaces) (sourceField C (ws t)) := by
    intro ws t v
    funext f d i
    exact sub_eq_add_neg _ _
  obtain ⟨w, w', f, f', f''⟩ := run_rk4_comb q (hF waves) (hF waves') (hF fun t => waves t ++ waves' t) (a := 1) (b := 1)
    (fun t => by
      rw [one_smul, one_smul, sourceField_append, map_add, neg_add]) (List.replicate n dt ++ [last]) x x' t s s s
  rw [one_smul, one_smul, e1''] at f''
  rw [e1] at f
  rw [e1'] at f'
  have p : w = z := ((Prod.mk.inj (Option.some.inj f)).1).symm
  have p' : w' = z' := ((Prod.mk.inj (Option.some.inj f')).1).symm
  have p'' : z'' = w + w' := by simpa using (Prod.mk.inj (Option.some.inj f'')).1
  subst p p' p''
  have hD := sform_diss hP.good ha hs hP.pos
  have tri := nrm_add_le hD.symm hD.nonneg
  have t1 := tri ((-1 : ℝ) • (w + w' - y'')) ((w - y) + (w' - y'))
  have t2 := tri (w - y) (w' - y')
  have e : (-1 : ℝ) • (w + w' - y'') + ((w - y) + (w' - y')) = y'' - (y + y') := by module
  rw [e, nrm_smul] at t1
  simp only [abs_neg, abs_one, one_mul] at t1
  have i1 : nrm (sform M) (w - y) = size M (w - y) := rfl
  have i2 : nrm (sform M) (w' - y') = size M (w' - y') := rfl
  have i3 : nrm (sform M) (w + w' - y'') = size M (w + w' - y'') := rfl
  have i4 : nrm (sform M) (y'' - (y + y')) = size M (y'' - (y + y')) := rfl
  rw [i1, i2] at t2
  rw [i3, i4] at t1
  linarith

/-- C136 is violated: each of two equal waves of size `4e-9` alone causes nothing, both together move the fields. -/
theorem C136_violated : sourceRhs (K := ℚ) rowCase [rowWave (4 / 1000000000)] 0 = 0 ∧
    sourceRhs (K := ℚ) rowCase ([rowWave (4 / 1000000000)] ++ [rowWave (4 / 1000000000)]) 0 .E 1 1 ≠ 0 := by
  have hz : ∀ f d i, globalMult (K := ℚ) rowCase.prob 0 f d i = 0 := by
    intro f
    cases f <;> decide +kernel
  constructor
  · have hn : sourceNorm2 (K := ℚ) rowCase (sourceField rowCase [rowWave (4 / 1000000000)]) = 32 / 1000000000000000000 := by
      decide +kernel
    unfold sourceRhs
    rw [hn, if_pos (by unfold skip2; norm_num)]
    funext f d i
    exact hz f d i
  · have hn : sourceNorm2 (K := ℚ) rowCase (sourceField rowCase ([rowWave (4 / 1000000000)] ++ [rowWave (4 / 1000000000)])) =
        128 / 1000000000000000000 := by
      decide +kernel
    unfold sourceRhs
    rw [hn, if_neg (by unfold skip2; norm_num), hz, zero_sub, neg_ne_zero]
    decide +kernel

lemma row_passive : Passive (rowCase (K := ℝ)).prob (fun _ => 1) :=
  ⟨row_good, by simp [rowCase, Case.prob], fun v => by
    simp only [rowCase, Case.prob, Matrix.one_mulVec]
    exact Finset.sum_nonneg fun i _ => mul_self_nonneg _, row_pos⟩

/-- The hypotheses hold for the line with a transmitter at each end. -/
example (q : Sdirk ℝ) (hq : Ideal33 q) (A : Matrix (Slot (Fin 4)) (Slot (Fin 4)) ℝ)
    (hA : ∀ u : State (Fin 4) ℝ, A.mulVec (flat u) = flat (globalMult (line ℝ 1 none .PEC .SMA) u)) (o : Ode)
    (w r x : State (Fin 4) ℝ) :
    ∃ y y' c c' c'', run q o (globalTdo A fun t => flat (Real.sin t • w)) [1, 2] (flat x) 0 fresh = some (flat y, 0 + [1, 2].sum, c) ∧
      run q o (globalTdo A fun t => flat (Real.cos t • r)) [1, 2] (flat x) 0 fresh = some (flat y', 0 + [1, 2].sum, c') ∧
      run q o (globalTdo A fun t => flat ((2 : ℝ) • Real.sin t • w + (3 : ℝ) • Real.cos t • r)) [1, 2]
        (flat ((2 : ℝ) • x + (3 : ℝ) • x)) 0 fresh = some (flat ((2 : ℝ) • y + (3 : ℝ) • y'), 0 + [1, 2].sum, c'') :=
  C136_run q hq _ _ (line_passive 1 (by norm_num) none (by simp) _ _) A hA (fun t => Real.sin t • w) (fun t => Real.cos t • r) x x 2 3 o
    [1, 2] (by
      intro dt h
      simp only [List.mem_cons, List.not_mem_nil, or_false] at h
      rcases h with rfl | rfl <;> norm_num) 0

example : ∃ L : ℝ, 0 ≤ L ∧ ∀ u, energy (fun _ => 1) (globalMult (rowCase (K := ℝ)).prob u) ≤ L ^ 2 * energy (fun _ => 1) u :=
  C119_bounded _ _ row_pos

/-! ### convergence in space and time -/

/-- Exact solutions of the semi-discrete equations stay near consistent fields. -/
lemma near {P : Prob ι ℝ} {M : FieldT → Matrix ι ι ℝ} (hP : Passive P M) {src u w : ℝ → State ι ℝ} {t t' δ : ℝ} (ht : t ≤ t')
    (hu : ∀ r f d i, HasDerivAt (fun s => u s f d i) (globalMult P (u r) f d i + src r f d i) r)
    (hw : Consistent P M src w t t' δ) : size M (u t' - w t') ≤ size M (u t - w t) + (t' - t) * δ := by
  obtain ⟨A, hA⟩ := exists_matrix P
  obtain ⟨res, hres⟩ := hw
  have hD := eform_diss hP.good hP.alpha hP.sig hP.pos hA
  have := residual_le hD (e := fun s => flat (u s) - flat (w s)) (r := fun s => -flat (res s)) (δ := δ) ht
    (by
      intro s h1 h2
      have d1 := flat_solution hA hu s
      have d2 : HasDerivAt (fun s => flat (w s)) (A.mulVecLin (flat (w s)) + flat (src s) + flat (res s)) s := by
        rw [Matrix.mulVecLin_apply, hA]
        exact hasDerivAt_pi.2 fun x => (hres s h1 h2).2 x.1 x.2.1 x.2.2
      refine (d1.sub d2).congr_deriv ?_
      rw [map_sub]
      abel)
    (by
      intro s h1 h2
      have e := nrm_smul (eform M) (-1) (flat (res s))
      rw [abs_neg, abs_one, one_mul, neg_one_smul] at e
      rw [e]
      exact (hres s h1 h2).1)
  exact this

lemma size_tri {P : Prob ι ℝ} {M : FieldT → Matrix ι ι ℝ} (hP : Passive P M) (x y z : State ι ℝ) :
    size M (x - z) ≤ size M (x - y) + size M (y - z) := by
  have hD := sform_diss hP.good hP.alpha hP.sig hP.pos
  have t1 := nrm_add_le hD.symm hD.nonneg (x - y) (y - z)
  rw [sub_add_sub_cancel] at t1
  exact t1

/-- **C137**: consistency gives convergence.  For smooth sources, initial fields and a final time there is a constant such that a run
of an implicit integrator with steps of at most `H` ends within the initial error, the time times the residual, and the constant
times `H` to the order of the integrator, of any fields that satisfy the semi-discrete equations up to a residual. -/
theorem C137_implicit (q : Sdirk ℝ) (hq : Ideal33 q) (P : Prob ι ℝ) (M : FieldT → Matrix ι ι ℝ) (hP : Passive P M)
    (A : Matrix (Slot ι) (Slot ι) ℝ) (hA : ∀ u : State ι ℝ, A.mulVec (flat u) = flat (globalMult P u)) (o : Ode) (ho : o ≠ .rk4)
    (src : ℝ → State ι ℝ) (hsrc : ∀ f d i, ContDiff ℝ (order o) fun t => src t f d i) (x : State ι ℝ) (t T : ℝ) :
    ∃ C, ∀ (H : ℝ) (dts : List ℝ), 0 ≤ H → H ≤ 1 → (∀ dt ∈ dts, 0 ≤ dt ∧ dt ≤ H) → dts.sum ≤ T →
      ∃ y c, run q o (globalTdo A fun t => flat (src t)) dts (flat x) t fresh = some (flat y, t + dts.sum, c) ∧
        ∀ (w : ℝ → State ι ℝ) (δ : ℝ), Consistent P M src w t (t + dts.sum) δ →
          size M (y - w (t + dts.sum)) ≤ size M (x - w t) + dts.sum * δ + C * H ^ order o := by
  obtain ⟨⟨u, hu0, hu⟩, -⟩ := C122_solution P M hP.good hP.alpha hP.sig hP.pos src (fun f d i => (hsrc f d i).continuous) t x
  obtain ⟨C, hC⟩ := C122_converges_implicit q hq P M hP.good hP.alpha hP.sig hP.pos A hA o ho src hsrc u hu t T
  refine ⟨C, ?_⟩
  intro H dts hH0 hH hdts hT
  obtain ⟨y, c, e, le⟩ := hC H dts hH0 hH hdts hT
  rw [hu0] at e
  refine ⟨y, c, e, ?_⟩
  intro w δ hw
  have hn : 0 ≤ dts.sum := List.sum_nonneg fun d hd => (hdts d hd).1
  have h1 := near hP (by linarith) hu hw
  have h2 := size_tri hP y (u (t + dts.sum)) (w (t + dts.sum))
  rw [hu0, add_sub_cancel_left] at h1
  linarith

/-- **C137** for the explicit integrator, with steps within the bound of C119. -/
theorem C137_explicit (q : Sdirk ℝ) (P : Prob ι ℝ) (M : FieldT → Matrix ι ι ℝ) (hP : Passive P M)
    (A : Matrix (Slot ι) (Slot ι) ℝ) (hA : ∀ u : State ι ℝ, A.mulVec (flat u) = flat (globalMult P u))
    (src : ℝ → State ι ℝ) (hsrc : ∀ f d i, ContDiff ℝ 4 fun t => src t f d i) (x : State ι ℝ) (L : ℝ) (hL0 : 0 ≤ L)
    (hL : ∀ u : State ι ℝ, energy M (globalMult P u) ≤ L ^ 2 * energy M u) (t T : ℝ) :
    ∃ C, ∀ (dt last : ℝ) (n : Nat), 0 ≤ last → last ≤ dt → dt ≤ 1 → dt * L ≤ 1 / 4 → n * dt + last ≤ T →
      ∃ y c, run q .rk4 (globalTdo A fun t => flat (src t)) (List.replicate n dt ++ [last]) (flat x) t fresh =
          some (flat y, t + n * dt + last, c) ∧
        ∀ (w : ℝ → State ι ℝ) (δ : ℝ), Consistent P M src w t (t + n * dt + last) δ →
          size M (y - w (t + n * dt + last)) ≤ size M (x - w t) + (n * dt + last) * δ + C * dt ^ 4 := by
  obtain ⟨⟨u, hu0, hu⟩, -⟩ := C122_solution P M hP.good hP.alpha hP.sig hP.pos src (fun f d i => (hsrc f d i).continuous) t x
  obtain ⟨C, hC⟩ := C122_converges_explicit q P M hP.good hP.alpha hP.sig hP.pos A hA src hsrc u hu L hL0 hL t T
  refine ⟨C, ?_⟩
  intro dt last n h0 hl h1 hdt hT
  obtain ⟨y, c, e, le⟩ := hC dt last n h0 hl h1 hdt hT
  rw [hu0] at e
  refine ⟨y, c, e, ?_⟩
  intro w δ hw
  have hn : 0 ≤ (n : ℝ) * dt := mul_nonneg (Nat.cast_nonneg n) (h0.trans hl)
  have h1 := near hP (by linarith) hu hw
  have h2 := size_tri hP y (u (t + n * dt + last)) (w (t + n * dt + last))
  rw [hu0, show t + n * dt + last - t = n * dt + last by ring] at h1
  linarith

/-- Fields at rest are consistent with no sources, without residual; fields that grow are consistent with a residual. -/
example (P : Prob ι ℝ) (M : FieldT → Matrix ι ι ℝ) (t t' : ℝ) : Consistent P M (fun _ => 0) (fun _ => 0) t t' 0 := by
  refine ⟨fun _ => 0, fun s _ _ => ⟨by simp [size, energy], fun f d i => ?_⟩⟩
  have e : globalMult P 0 f d i = 0 := congrFun (congrFun (congrFun (map_zero (opL P)) f) d) i
  rw [e]
  simpa using hasDerivAt_const s (0 : ℝ)

/-- The oscillating field of the rod, with its source known only up to a constant: the residual is what the source lacks. -/
example (ε : ℝ) (t t' : ℝ) : Consistent (rod 1 4) (fun _ => 1) (fun s => drive s - ey ε) (swing 0) t t' (size (fun _ => 1) (ey ε)) := by
  refine ⟨fun _ => ey ε, fun s _ _ => ⟨le_rfl, fun f d i => ?_⟩⟩
  refine (swing_deriv 0 s f d i).congr_deriv ?_
  rw [swing_eq]
  simp only [Pi.add_apply, Pi.sub_apply]
  ring

end Dgtd.Super
