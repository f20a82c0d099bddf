/-
Plane waves on several ranks (C127, C128).
-/
import Verif.Lemmas.ParSource
import Verif.Lemmas.TimeIntPert
import Verif.Props.Par
import Verif.Props.OpSource

set_option linter.unusedSectionVars false
set_option linter.unusedSimpArgs false

namespace Dgtd.Par

open Dgtd.Op Dgtd.Op.Spec Spec

section field
variable {ι K : Type} [Fintype ι] [DecidableEq ι] [Field K] [LinearOrder K] [IsStrictOrderedRing K]
variable {R : Type} [DecidableEq R] {N G : R → Nat} {C : Case ι K} {Q : (r : R) → RankCase (N r) (G r) K}
  {src : (r : R) → Fin (G r) → (q : R) × Fin (N q)} {num : (r : R) → Fin (N r + G r) → ι} {side1 side2 : Face ι K → R}

lemma norm2_entry (C : Case ι K) (v : State ι K) (f : FieldT) (d : Dir) {i : ι} (hi : i ∈ C.sub) :
    v f d i * v f d i ≤ sourceNorm2 C v := by
  unfold sourceNorm2
  refine List.single_le_sum ?_ _ ?_
  · intro x hx
    simp only [List.mem_flatMap, List.mem_map] at hx
    obtain ⟨f, _, d, _, i, _, rfl⟩ := hx
    exact mul_self_nonneg _
  · simp only [List.mem_flatMap, List.mem_map]
    refine ⟨f, by cases f <;> simp [fields], d, ?_, i, hi, rfl⟩
    revert d
    decide

lemma source_off (C : Case ι K) (waves : List (State ι K)) (f : FieldT) (d : Dir) {i : ι} (hi : i ∉ C.sub) :
    sourceField C waves f d i = 0 := by
  unfold sourceField
  rw [if_neg hi]

/-- Below the threshold every value is small. -/
lemma small_of_skip (C : Case ι K) (waves : List (State ι K)) (h : sourceNorm2 C (sourceField C waves) < skip2) (f : FieldT)
    (d : Dir) (i : ι) : |sourceField C waves f d i| < 1 / 100000000 := by
  by_cases hi : i ∈ C.sub
  · have h1 := (norm2_entry C (sourceField C waves) f d hi).trans_lt h
    apply abs_lt_of_sq_lt_sq (by rw [sq]; refine h1.trans_eq ?_; unfold skip2; norm_num) (by positivity)
  · rw [source_off C waves f d hi]
    simp

lemma not_skip (C : Case ι K) (waves : List (State ι K)) (f : FieldT) (d : Dir) (i : ι)
    (h : 1 / 100000000 ≤ |sourceField C waves f d i|) : ¬ sourceNorm2 C (sourceField C waves) < skip2 :=
  fun hs => absurd (small_of_skip C waves hs f d i) (not_lt.2 h)

lemma applyBlocks_zeroS (bs : List (GBlock ι K)) (f : FieldT) (d : Dir) (i : ι) :
    applyBlocks bs (fun _ _ _ => 0) f d i = (0 : K) := by
  have := applyBlocks_sub bs (fun _ _ _ => 0) (fun _ _ _ => 0) f d i
  simpa using this

lemma Spec.SplitCase.rhs (S : SplitCase C Q src num side1 side2) (waves : List (State ι K)) (v : State ι K) (r : R)
    (f : FieldT) (d : Dir) (k : Fin (N r)) :
    sourceRhsPar Q src (fun r => waves.map fun w => scatter (G := G) num w r) (scatter num v) r f d k =
      globalMult C.prob v f d (num r (Fin.castAdd _ k)) -
        if sourceNorm2 (Q r).own (sourceField (Q r).own (waves.map fun w => scatter (G := G) num w r)) < skip2 then 0
        else applyBlocks (sourceBlocks C C.tfFaces) (sourceField C waves) f d (num r (Fin.castAdd _ k)) := by
  have e : globalPar (fun r => (Q r).prob) src (scatter num v) r f d k = globalMult C.prob v f d (num r (Fin.castAdd _ k)) :=
    congrFun (congrFun (congrFun (congrFun (C124_global_partial S.prob v) r) f) d) k
  unfold sourceRhsPar
  simp only
  split_ifs
  · rw [sub_zero]; exact e
  · beta_reduce
    rw [e, S.field]
    congr 1
    rw [← apply_agree (S.blocks r) (sourceField C waves) f d k]
    rw [widened_own (Q r) _ (fun f d c => sourceField C waves f d (num r c))]
    intro f d k
    simp [withGhosts, scatter]

/-- A row of the source operator reads the fields of its own rank only. -/
lemma Spec.SplitCase.row (S : SplitCase C Q src num side1 side2) (x y : State ι K) (r : R)
    (h : ∀ f d (k : Fin (N r)), x f d (num r (Fin.castAdd _ k)) = y f d (num r (Fin.castAdd _ k))) (f : FieldT) (d : Dir)
    (k : Fin (N r)) : applyBlocks (sourceBlocks C C.tfFaces) x f d (num r (Fin.castAdd _ k)) =
      applyBlocks (sourceBlocks C C.tfFaces) y f d (num r (Fin.castAdd _ k)) := by
  rw [← apply_agree (S.blocks r) x f d k, ← apply_agree (S.blocks r) y f d k,
    widened_own (Q r) _ (fun f d c => y f d (num r c))]
  exact h

/-- C127: whatever the ranks decide, together they launch the waves of the whole case, up to values smaller than `1e-8`
that are left out; which ones depends on the waves only. -/
theorem C127_launch (S : SplitCase C Q src num side1 side2) (waves : List (State ι K)) :
    ∃ w, Neglects (sourceField C waves) w ∧ ∀ v : State ι K,
      sourceRhsPar Q src (fun r => waves.map fun w => scatter (G := G) num w r) (scatter num v) =
        scatter num fun f d i => globalMult C.prob v f d i - applyBlocks (sourceBlocks C C.tfFaces) w f d i := by
  classical
  choose own h1 h2 using S.prob.owned
  refine ⟨fun f d i => if sourceNorm2 (Q (own i).1).own (sourceField (Q (own i).1).own
    (waves.map fun w => scatter (G := G) num w (own i).1)) < skip2 then 0 else sourceField C waves f d i, ?_, ?_⟩
  · intro f d i
    simp only
    split_ifs with hs
    · right
      refine ⟨rfl, ?_⟩
      have := small_of_skip _ _ hs f d (own i).2
      rw [S.field] at this
      simp only [scatter] at this
      rwa [h1 i] at this
    · exact .inl rfl
  · intro v
    funext r f d k
    rw [S.rhs]
    simp only [scatter]
    congr 1
    have ho : ∀ k : Fin (N r), own (num r (Fin.castAdd _ k)) = ⟨r, k⟩ := fun k =>
      (h2 (num r (Fin.castAdd _ k)) ⟨r, k⟩ rfl).symm
    split_ifs with hs
    · rw [S.row _ (fun _ _ _ => 0) r, applyBlocks_zeroS]
      intro f d k
      rw [ho]
      exact if_pos hs
    · refine S.row _ _ r ?_ f d k
      intro f d k
      rw [ho]
      exact (if_neg hs).symm

/-- C127 on one rank. -/
theorem C127_one (C : Case ι K) (waves : List (State ι K)) : ∃ w, Neglects (sourceField C waves) w ∧ ∀ v : State ι K,
    sourceRhs C waves v = fun f d i => globalMult C.prob v f d i - applyBlocks (sourceBlocks C C.tfFaces) w f d i := by
  by_cases hs : sourceNorm2 C (sourceField C waves) < skip2
  · refine ⟨fun _ _ _ => 0, fun f d i => .inr ⟨rfl, small_of_skip C waves hs f d i⟩, fun v => ?_⟩
    unfold sourceRhs
    rw [if_pos hs]
    funext f d i
    rw [applyBlocks_zeroS, sub_zero]
  · refine ⟨sourceField C waves, fun _ _ _ => .inl rfl, fun v => ?_⟩
    unfold sourceRhs
    rw [if_neg hs]

/-- C127: if on every rank the waves vanish or one of their values is at least `1e-8`, the equations are those of the whole
case. -/
theorem C127_same (S : SplitCase C Q src num side1 side2) (waves : List (State ι K))
    (h : ∀ r, (∀ f d (k : Fin (N r)), sourceField C waves f d (num r (Fin.castAdd _ k)) = 0) ∨
      ∃ f d, ∃ k : Fin (N r), 1 / 100000000 ≤ |sourceField C waves f d (num r (Fin.castAdd _ k))|) (v : State ι K) :
    sourceRhsPar Q src (fun r => waves.map fun w => scatter (G := G) num w r) (scatter num v) =
      scatter num (sourceRhs C waves v) := by
  have hrow : ∀ r f d (k : Fin (N r)), sourceRhs C waves v f d (num r (Fin.castAdd _ k)) =
      globalMult C.prob v f d (num r (Fin.castAdd _ k)) -
        applyBlocks (sourceBlocks C C.tfFaces) (sourceField C waves) f d (num r (Fin.castAdd _ k)) := by
    intro r f d k
    unfold sourceRhs
    split_ifs with hs
    · have hz : ∀ r, ∀ f d (k : Fin (N r)), sourceField C waves f d (num r (Fin.castAdd _ k)) = 0 := by
        intro r
        rcases h r with h | ⟨f, d, k, h⟩
        · exact h
        · exact absurd hs (not_skip C waves f d _ h)
      rw [S.row _ (fun _ _ _ => 0) r (hz r), applyBlocks_zeroS, sub_zero]
    · rfl
  funext r f d k
  rw [S.rhs]
  show _ = sourceRhs C waves v f d (num r (Fin.castAdd _ k))
  rw [hrow]
  congr 1
  split_ifs with hs
  · rcases h r with h | ⟨f', d', k', h⟩
    · rw [S.row _ (fun _ _ _ => 0) r h, applyBlocks_zeroS]
    · refine absurd hs (not_skip _ _ f' d' k' ?_)
      rw [S.field]
      exact h
  · rfl

end field

/-! ### runs -/

section runs
open TimeInt TimeInt.Spec Implicit

variable {ι : Type} [Fintype ι] [DecidableEq ι]
variable {R : Type} [DecidableEq R] {N G : R → Nat} {C : Case ι ℝ} {Q : (r : R) → RankCase (N r) (G r) ℝ}
  {src : (r : R) → Fin (G r) → (q : R) × Fin (N q)} {num : (r : R) → Fin (N r + G r) → ι} {side1 side2 : Face ι ℝ → R}

/-- The fields as a flat vector, and back. -/
def flatL : State ι ℝ →ₗ[ℝ] (Slot ι → ℝ) where
  toFun := flat
  map_add' := fun _ _ => rfl
  map_smul' := fun _ _ => rfl

def unflatL : (Slot ι → ℝ) →ₗ[ℝ] State ι ℝ where
  toFun := unflat
  map_add' := fun _ _ => rfl
  map_smul' := fun _ _ => rfl

/-- The form of the energy on fields. -/
noncomputable def sform (M : FieldT → Matrix ι ι ℝ) : State ι ℝ →ₗ[ℝ] State ι ℝ →ₗ[ℝ] ℝ :=
  (eform M).compl₁₂ flatL flatL

/-- Blocks act linearly. -/
noncomputable def applyL (bs : List (GBlock ι ℝ)) : State ι ℝ →ₗ[ℝ] State ι ℝ where
  toFun := fun u f d i => applyBlocks bs u f d i
  map_add' := by
    intro u v
    funext f d i
    induction bs with
    | nil => simp [applyBlocks_nilS]
    | cons b bs ih =>
      simp only [Pi.add_apply] at ih ⊢
      simp only [applyBlocks_consS, Pi.add_apply, ih]
      by_cases h : b.rowF = f ∧ b.rowD = d
      · simp only [if_pos h, Pi.smul_apply, smul_eq_mul, Matrix.mulVec_add, Pi.add_apply]; ring
      · simp only [if_neg h, Pi.zero_apply]; ring
  map_smul' := by
    intro c u
    funext f d i
    induction bs with
    | nil => simp [applyBlocks_nilS]
    | cons b bs ih =>
      simp only [Pi.smul_apply, RingHom.id_apply, smul_eq_mul] at ih ⊢
      simp only [applyBlocks_consS, Pi.add_apply, ih]
      by_cases h : b.rowF = f ∧ b.rowD = d
      · simp only [if_pos h, Pi.smul_apply, smul_eq_mul, Matrix.mulVec_smul]; ring
      · simp only [if_neg h, Pi.zero_apply]; ring

/-- The energy of what a linear operator makes of small values is small. -/
lemma small_image (M : FieldT → Matrix ι ι ℝ) (bs : List (GBlock ι ℝ)) : ∃ c, 0 ≤ c ∧ ∀ (x : State ι ℝ) (e : ℝ), 0 ≤ e →
    (∀ f d i, |x f d i| ≤ e) → size M (fun f d i => applyBlocks bs x f d i) ≤ c * e := by
  obtain ⟨L, hL⟩ : ∃ L : (Slot ι → ℝ) →ₗ[ℝ] (Slot ι → ℝ), L = flatL ∘ₗ applyL bs ∘ₗ unflatL := ⟨_, rfl⟩
  refine ⟨Real.sqrt ‖(eform M).toContinuousBilinearMap‖ * ‖LinearMap.toContinuousLinearMap L‖, by positivity, ?_⟩
  intro x e he hx
  have hn : ‖flat x‖ ≤ e := (pi_norm_le_iff_of_nonneg he).2 fun s => hx s.1 s.2.1 s.2.2
  have h1 : ‖L (flat x)‖ ≤ ‖LinearMap.toContinuousLinearMap L‖ * e :=
    ((LinearMap.toContinuousLinearMap L).le_opNorm (flat x)).trans (mul_le_mul_of_nonneg_left hn (norm_nonneg _))
  have h2 : size M (fun f d i => applyBlocks bs x f d i) = Real.sqrt (eform M (L (flat x)) (L (flat x))) := by
    rw [hL]; rfl
  have h3 := (eform M).toContinuousBilinearMap.le_opNorm₂ (L (flat x)) (L (flat x))
  have h4 : eform M (L (flat x)) (L (flat x)) ≤ ‖(eform M).toContinuousBilinearMap‖ * (‖L (flat x)‖ * ‖L (flat x)‖) := by
    rw [← mul_assoc]
    exact (le_abs_self _).trans h3
  rw [h2]
  have hB : 0 ≤ ‖(eform M).toContinuousBilinearMap‖ := ContinuousLinearMap.opNorm_nonneg _
  have h5 := mul_self_le_mul_self (norm_nonneg _) h1
  calc Real.sqrt (eform M (L (flat x)) (L (flat x)))
      ≤ Real.sqrt (‖(eform M).toContinuousBilinearMap‖ * ((‖LinearMap.toContinuousLinearMap L‖ * e) *
        (‖LinearMap.toContinuousLinearMap L‖ * e))) :=
        Real.sqrt_le_sqrt (h4.trans (mul_le_mul_of_nonneg_left h5 hB))
    _ = Real.sqrt ‖(eform M).toContinuousBilinearMap‖ * ‖LinearMap.toContinuousLinearMap L‖ * e := by
      rw [Real.sqrt_mul hB, Real.sqrt_mul_self (by positivity), mul_assoc]

/-- The operator without sources, as a linear map. -/
noncomputable def opL (P : Prob ι ℝ) : State ι ℝ →ₗ[ℝ] State ι ℝ := applyL (globalBlocks P)

lemma sform_diss {P : Prob ι ℝ} {M : FieldT → Matrix ι ι ℝ} (h : Op.Spec.Good P M) (ha : 0 ≤ P.alpha)
    (hs : ∀ v : ι → ℝ, 0 ≤ v ⬝ᵥ P.Msig.mulVec v) (hM : ∀ u, u ≠ 0 → 0 < energy M u) : Diss (sform M) (opL P) := by
  obtain ⟨A, hA⟩ := exists_matrix P
  have D := eform_diss h ha hs hM hA
  refine ⟨fun u v => D.symm _ _, fun u => D.nonneg _, fun u => ?_⟩
  have := D.diss (flat u)
  rw [Matrix.mulVecLin_apply, hA] at this
  exact this

/-- The values neglected in a wave change its contribution by a bounded multiple of `1e-8`. -/
lemma neglected (M : FieldT → Matrix ι ι ℝ) (bs : List (GBlock ι ℝ)) {c : ℝ} (hc : ∀ (x : State ι ℝ) (e : ℝ), 0 ≤ e →
    (∀ f d i, |x f d i| ≤ e) → size M (fun f d i => applyBlocks bs x f d i) ≤ c * e) {v w : State ι ℝ} (h : Neglects v w) :
    nrm (sform M) (-applyL bs v - -applyL bs w) ≤ c / 100000000 := by
  have e : -applyL bs v - -applyL bs w = applyL bs (w - v) := by rw [map_sub]; abel
  rw [e]
  have := hc (w - v) (1 / 100000000) (by norm_num) (by
    intro f d i
    rw [Pi.sub_apply, Pi.sub_apply, Pi.sub_apply]
    rcases h f d i with h | ⟨h0, h1⟩
    · rw [h, sub_self, abs_zero]; norm_num
    · rw [h0, zero_sub, abs_neg]; exact h1.le)
  rw [mul_one_div] at this
  exact this

/-- Explicit runs with and without the neglected values. -/
lemma run_neglects {C : Case ι ℝ} {M : FieldT → Matrix ι ι ℝ} (h : Op.Spec.Good C.prob M) (ha : 0 ≤ C.alpha)
    (hs : ∀ v : ι → ℝ, 0 ≤ v ⬝ᵥ C.Msig.mulVec v) (hM : ∀ u, u ≠ 0 → 0 < energy M u) {c : ℝ}
    (hc : ∀ (x : State ι ℝ) (e : ℝ), 0 ≤ e → (∀ f d i, |x f d i| ≤ e) →
      size M (fun f d i => applyBlocks (sourceBlocks C C.tfFaces) x f d i) ≤ c * e) {L : ℝ} (hL0 : 0 ≤ L)
    (hL : ∀ u, energy M (globalMult C.prob u) ≤ L ^ 2 * energy M u) (q : Sdirk ℝ) {T : Type} (s : T) {v w : ℝ → State ι ℝ}
    (hw : ∀ t, Neglects (v t) (w t)) {dt last : ℝ} (h0 : 0 ≤ last) (hl : last ≤ dt) (hdt : dt * L ≤ 1 / 4) (n : Nat)
    (u : State ι ℝ) (t : ℝ) : ∃ y y',
      run q .rk4 (explicitTdo fun t x f d i => globalMult C.prob x f d i - applyBlocks (sourceBlocks C C.tfFaces) (v t) f d i)
        (List.replicate n dt ++ [last]) u t s = some (y, t + n * dt + last, s) ∧
      run q .rk4 (explicitTdo fun t x f d i => globalMult C.prob x f d i - applyBlocks (sourceBlocks C C.tfFaces) (w t) f d i)
        (List.replicate n dt ++ [last]) u t s = some (y', t + n * dt + last, s) ∧
      size M (y - y') ≤ 4 * c * (n * dt + last) / 100000000 := by
  have hD := sform_diss h ha hs hM
  have hb : ∀ d, 0 ≤ d → d ≤ dt → ∀ x, sform M ((d • opL C.prob) x) ((d • opL C.prob) x) ≤ 1 / 16 * sform M x x := by
    intro d hd hd' x
    have e : sform M ((d • opL C.prob) x) ((d • opL C.prob) x) = d ^ 2 * energy M (globalMult C.prob x) := by
      rw [LinearMap.smul_apply, map_smul, map_smul, LinearMap.smul_apply, smul_eq_mul, smul_eq_mul, ← mul_assoc, ← sq]
      rfl
    have h1 : d * L ≤ 1 / 4 := (mul_le_mul_of_nonneg_right hd' hL0).trans hdt
    have h2 : (d * L) ^ 2 ≤ 1 / 16 := by nlinarith [mul_nonneg hd hL0]
    rw [e]
    calc d ^ 2 * energy M (globalMult C.prob x) ≤ d ^ 2 * (L ^ 2 * energy M x) :=
          mul_le_mul_of_nonneg_left (hL x) (sq_nonneg d)
      _ = (d * L) ^ 2 * energy M x := by ring
      _ ≤ 1 / 16 * energy M x := mul_le_mul_of_nonneg_right h2 (hD.nonneg x)
  obtain ⟨y, y', r, r', hy⟩ := run_change_last (S := T) q
    (F := explicitTdo fun t x f d i => globalMult C.prob x f d i - applyBlocks (sourceBlocks C C.tfFaces) (v t) f d i)
    (F' := explicitTdo fun t x f d i => globalMult C.prob x f d i - applyBlocks (sourceBlocks C C.tfFaces) (w t) f d i)
    (A := opL C.prob) (src := fun t => -applyL (sourceBlocks C C.tfFaces) (v t))
    (src' := fun t => -applyL (sourceBlocks C C.tfFaces) (w t))
    (by intro t x; funext f d i; exact sub_eq_add_neg _ _) (by intro t x; funext f d i; exact sub_eq_add_neg _ _)
    hD h0 hl (hb dt (h0.trans hl) le_rfl) (hb last h0 hl) (fun t => neglected M _ hc (hw t)) n u t s s
  refine ⟨y, y', r, r', ?_⟩
  have e : nrm (sform M) (y - y') = size M (y - y') := rfl
  rw [e] at hy
  refine hy.trans (le_of_eq ?_)
  ring

/-- C128: for every case there is a constant such that, however the case is split among ranks, a run of explicit steps on
the ranks ends with fields that differ from those obtained with all the waves, none of them neglected, by at most the
constant times the elapsed time times `1e-8`, for any waves and any number of steps within the bound of C119. -/
theorem C128_ranks (C : Case ι ℝ) (M : FieldT → Matrix ι ι ℝ) (h : Op.Spec.Good C.prob M) (ha : 0 ≤ C.alpha)
    (hs : ∀ v : ι → ℝ, 0 ≤ v ⬝ᵥ C.Msig.mulVec v) (hM : ∀ u, u ≠ 0 → 0 < energy M u) :
    ∃ c, 0 ≤ c ∧ ∀ {R : Type} [DecidableEq R] {N G : R → Nat} {Q : (r : R) → RankCase (N r) (G r) ℝ}
      {src : (r : R) → Fin (G r) → (q : R) × Fin (N q)} {num : (r : R) → Fin (N r + G r) → ι} {side1 side2 : Face ι ℝ → R},
      SplitCase C Q src num side1 side2 → ∀ (L : ℝ), 0 ≤ L → (∀ u, energy M (globalMult C.prob u) ≤ L ^ 2 * energy M u) →
      ∀ (q : Sdirk ℝ) (T : Type) (s : T) (waves : ℝ → List (State ι ℝ)) (dt last : ℝ), 0 ≤ last → last ≤ dt → dt * L ≤ 1 / 4 →
      ∀ (n : Nat) (u : State ι ℝ) (t : ℝ), ∃ y y',
        run q .rk4 (explicitTdo fun t v f d i => globalMult C.prob v f d i -
            applyBlocks (sourceBlocks C C.tfFaces) (sourceField C (waves t)) f d i)
          (List.replicate n dt ++ [last]) u t s = some (y, t + n * dt + last, s) ∧
        run q .rk4 (explicitTdo fun t v => sourceRhsPar Q src (fun r => (waves t).map fun w => scatter (G := G) num w r) v)
          (List.replicate n dt ++ [last]) (scatter num u) t s = some (scatter num y', t + n * dt + last, s) ∧
        size M (y - y') ≤ c * (n * dt + last) / 100000000 := by
  obtain ⟨c, hc0, hc⟩ := small_image M (sourceBlocks C C.tfFaces)
  refine ⟨4 * c, by positivity, ?_⟩
  intro R _ N G Q src num side1 side2 S L hL0 hL q T s waves dt last h0 hl hdt n u t
  choose w hw hr using fun t => C127_launch S (waves t)
  obtain ⟨y, y', r, r', hy⟩ := run_neglects h ha hs hM hc hL0 hL q s hw h0 hl hdt n u t
  refine ⟨y, y', r, ?_, hy⟩
  have := run_map (T := T) q (scatterL (G := G) num)
    (F := explicitTdo fun t v f d i => globalMult C.prob v f d i - applyBlocks (sourceBlocks C C.tfFaces) (w t) f d i)
    (F' := explicitTdo fun t v => sourceRhsPar Q src (fun r => (waves t).map fun w => scatter (G := G) num w r) v)
    (fun t x => hr t x) (List.replicate n dt ++ [last]) u t s
  rw [r'] at this
  exact this

/-- C128 on one rank. -/
theorem C128_one (C : Case ι ℝ) (M : FieldT → Matrix ι ι ℝ) (h : Op.Spec.Good C.prob M) (ha : 0 ≤ C.alpha)
    (hs : ∀ v : ι → ℝ, 0 ≤ v ⬝ᵥ C.Msig.mulVec v) (hM : ∀ u, u ≠ 0 → 0 < energy M u) :
    ∃ c, 0 ≤ c ∧ ∀ (L : ℝ), 0 ≤ L → (∀ u, energy M (globalMult C.prob u) ≤ L ^ 2 * energy M u) →
      ∀ (q : Sdirk ℝ) (T : Type) (s : T) (waves : ℝ → List (State ι ℝ)) (dt last : ℝ), 0 ≤ last → last ≤ dt → dt * L ≤ 1 / 4 →
      ∀ (n : Nat) (u : State ι ℝ) (t : ℝ), ∃ y y',
        run q .rk4 (explicitTdo fun t v f d i => globalMult C.prob v f d i -
            applyBlocks (sourceBlocks C C.tfFaces) (sourceField C (waves t)) f d i)
          (List.replicate n dt ++ [last]) u t s = some (y, t + n * dt + last, s) ∧
        run q .rk4 (explicitTdo fun t v => sourceRhs C (waves t) v)
          (List.replicate n dt ++ [last]) u t s = some (y', t + n * dt + last, s) ∧
        size M (y - y') ≤ c * (n * dt + last) / 100000000 := by
  obtain ⟨c, hc0, hc⟩ := small_image M (sourceBlocks C C.tfFaces)
  refine ⟨4 * c, by positivity, ?_⟩
  intro L hL0 hL q T s waves dt last h0 hl hdt n u t
  choose w hw hr using fun t => C127_one C (waves t)
  obtain ⟨y, y', r, r', hy⟩ := run_neglects h ha hs hM hc hL0 hL q s hw h0 hl hdt n u t
  refine ⟨y, y', r, ?_, hy⟩
  simp only [hr]
  exact r'

end runs

/-! ### four elements of order zero on a line, two on each of two ranks -/

section example2

variable {K : Type} [Field K] [LinearOrder K]

/-- The face between elements `a` and `b`. -/
def rowFace (n : Nat) (a b : Fin (n + 1)) : Face (Fin (n + 1)) K :=
  { ndof1 := 1, ndof2 := 1, dofs := fun i => if i = 0 then a else b
    pts := [{ w := 1, W := 1, nor := [1], sh1 := fun _ => 1, sh2 := fun _ => 1 }] }

/-- An end of the line at element `a`. -/
def rowEnd (n : Nat) (a : Fin (n + 1)) (nor : K) : Face (Fin (n + 1)) K :=
  { ndof1 := 1, ndof2 := 0, dofs := fun _ => a
    pts := [{ w := 1, W := 1, nor := [nor], sh1 := fun _ => 1, sh2 := fun _ => 0 }] }

/-- The total field is in the two middle elements; all conduct; the ends absorb. -/
def rowCase : Case (Fin 4) K :=
  { dim := 1
    alpha := 1
    interior := [⟨none, true, rowFace 3 0 1⟩, ⟨none, false, rowFace 3 1 2⟩, ⟨none, true, rowFace 3 2 3⟩]
    bdr := [(some .SMA, rowEnd 3 0 (-1)), (some .SMA, rowEnd 3 3 1)]
    Minv := fun _ => 1
    Msig := 1
    D := fun _ => 0
    sub := [0, 1, 2, 3]
    sfSub := some [0, 3] }

/-- Each rank has two elements and one neighbour. -/
def rowRank (r : Fin 2) : RankCase 2 1 K :=
  { own :=
      { dim := 1
        alpha := 1
        interior := [⟨none, true, rowFace 1 0 1⟩]
        bdr := if r = 0 then [(some .SMA, rowEnd 1 0 (-1))] else [(some .SMA, rowEnd 1 1 1)]
        Minv := fun _ => 1
        Msig := 1
        D := fun _ => 0
        sub := [0, 1]
        sfSub := some (if r = 0 then [0] else [1]) }
    intBdr := false
    shared := [{ ndof1 := 1, ndof2 := 1, dofs := fun i => if i = 0 then (if r = 0 then 1 else 0) else 2
                 pts := [{ w := 1, W := 1, nor := [if r = 0 then 1 else -1], sh1 := fun _ => 1, sh2 := fun _ => 1 }] }] }

def rowNum (r : Fin 2) (k : Fin (2 + 1)) : Fin 4 := if r = 0 then ![0, 1, 2] k else ![2, 3, 1] k

def rowSrc (r : Fin 2) (_ : Fin 1) : (_ : Fin 2) × Fin 2 := if r = 0 then ⟨1, 0⟩ else ⟨0, 1⟩

def rowSide1 (F : Face (Fin 4) K) : Fin 2 := if F.dofs 0 < 2 then 0 else 1
def rowSide2 (F : Face (Fin 4) K) : Fin 2 := if F.dofs 1 < 2 then 0 else 1

lemma rowOwn : ∀ a : Fin 4, ∃ k : Fin 2, rowNum (if a < 2 then 0 else 1) (Fin.castAdd 1 k) = a := by decide

lemma rowSplit : SplitCase (K := K) rowCase rowRank rowSrc rowNum rowSide1 rowSide2 where
  prob :=
    { owned := by
        intro i
        refine ⟨if i.val < 2 then ⟨0, ⟨i.val % 2, by omega⟩⟩ else ⟨1, ⟨i.val % 2, by omega⟩⟩, ?_, ?_⟩
        · revert i; decide
        · rintro ⟨r, k⟩
          revert i r k
          decide
      ghost := by decide
      ghost_other := by decide
      dim := fun _ => rfl
      alpha := fun _ => rfl
      intBdr := fun _ => rfl
      first := by
        intro q hq i hi
        simp only [rowCase, Case.prob, List.map_cons, List.map_nil, List.cons_append, List.nil_append, List.mem_cons,
          List.not_mem_nil, or_false] at hq
        rcases hq with rfl | rfl | rfl | rfl | rfl <;>
        · obtain rfl : i = 0 := Nat.lt_one_iff.1 hi
          exact rowOwn _
      second := by
        intro q hq i hi
        simp only [rowCase, Case.prob, List.map_cons, List.map_nil, List.mem_cons, List.not_mem_nil, or_false] at hq
        rcases hq with rfl | rfl | rfl <;>
        · obtain rfl : i = 0 := Nat.lt_one_iff.1 hi
          exact rowOwn _
      one_side := by
        intro q hq
        simp only [rowCase, Case.prob, List.mem_cons, List.not_mem_nil, or_false] at hq
        rcases hq with rfl | rfl <;> rfl
      uncut := by
        intro q hq
        simp only [rowCase, Case.prob, List.map_cons, List.map_nil, List.mem_cons, List.not_mem_nil, or_false] at hq
        rcases hq with rfl | rfl | rfl <;> simp
      interior := by
        intro r
        refine ⟨_, .refl _, ?_⟩
        have hr : r = 0 ∨ r = 1 := by omega
        rcases hr with rfl | rfl
        · exact List.Forall₂.cons ⟨rfl, rfl, rfl, by simp only [rowFace]; decide, .refl _⟩ .nil
        · exact List.Forall₂.cons ⟨rfl, rfl, rfl, by simp only [rowFace]; decide, .refl _⟩ .nil
      shared1 := by
        intro r
        refine ⟨_, .refl _, ?_⟩
        have hr : r = 0 ∨ r = 1 := by omega
        rcases hr with rfl | rfl
        · refine List.Forall₂.cons ?_ .nil
          change SameFace (rowNum 0) _ (rowFace 3 1 2)
          exact ⟨rfl, rfl, by simp only [rowFace]; decide, .refl _⟩
        · refine List.Forall₂.cons ?_ .nil
          change SameFace (rowNum 1) _ (otherSide (rowFace 3 1 2))
          refine ⟨rfl, rfl, ?_, ?_⟩
          · intro i hi
            have h2 : i < 2 := hi
            interval_cases i <;> rfl
          · exact List.Perm.of_eq rfl
      bdr := by
        intro r
        refine ⟨_, .refl _, ?_⟩
        have hr : r = 0 ∨ r = 1 := by omega
        rcases hr with rfl | rfl
        · exact List.Forall₂.cons ⟨rfl, rfl, rfl, by simp only [rowEnd]; decide, .refl _⟩ .nil
        · exact List.Forall₂.cons ⟨rfl, rfl, rfl, by simp only [rowEnd]; decide, .refl _⟩ .nil
      Minv := by
        intro r f k k'
        have h : ∀ r k k' : Fin 2, k = k' ↔ rowNum r (Fin.castAdd 1 k) = rowNum r (Fin.castAdd 1 k') := by decide
        show (1 : Matrix (Fin 2) (Fin 2) K) k k' = (1 : Matrix (Fin 4) (Fin 4) K) _ _
        simp only [Matrix.one_apply, h r k k']
      Msig := by
        intro r k k'
        have h : ∀ r k k' : Fin 2, k = k' ↔ rowNum r (Fin.castAdd 1 k) = rowNum r (Fin.castAdd 1 k') := by decide
        show (1 : Matrix (Fin 2) (Fin 2) K) k k' = (1 : Matrix (Fin 4) (Fin 4) K) _ _
        simp only [Matrix.one_apply, h r k k']
      D := by intro r d k k'; rfl
      apart := by
        intro r k i hi f d
        have h1 : (1 : Matrix (Fin 4) (Fin 4) K) (rowNum r (Fin.castAdd 1 k)) i = 0 := by
          rw [Matrix.one_apply, if_neg (hi k)]
        exact ⟨h1, h1, rfl⟩ }
  tf_uncut := by
    intro q hq ht
    simp only [rowCase, List.mem_cons, List.not_mem_nil, or_false] at hq
    rcases hq with rfl | rfl | rfl
    · rfl
    · cases ht
    · rfl
  tf := by
    intro r
    refine ⟨_, .refl _, ?_⟩
    have hr : r = 0 ∨ r = 1 := by omega
    rcases hr with rfl | rfl
    · exact List.Forall₂.cons ⟨rfl, rfl, by simp only [rowFace]; decide, .refl _⟩ .nil
    · exact List.Forall₂.cons ⟨rfl, rfl, by simp only [rowFace]; decide, .refl _⟩ .nil
  sub := by simp only [rowRank, rowCase]; decide
  sf_some := by intro r _; simp [rowRank, rowCase]
  sf := by
    intro r l' l h' h
    simp only [rowRank, rowCase, Option.some.injEq] at h' h
    subst h' h
    revert r
    decide

/-- A wave of size `a` along the line. -/
def rowWave (a : K) : State (Fin 4) K
  | .E, d => if d = 1 then fun _ => a else 0
  | .H, d => if d = 2 then fun _ => a else 0

/-- C127 is violated: a wave of size `8e-9` is launched on one rank; on two ranks nothing happens. -/
theorem C127_violated : SplitCase (K := ℚ) rowCase rowRank rowSrc rowNum rowSide1 rowSide2 ∧
    sourceRhs (K := ℚ) rowCase [rowWave (8 / 1000000000)] 0 .E 1 1 ≠ 0 ∧
    sourceRhsPar (N := fun _ => 2) rowRank rowSrc (fun r => [rowWave (8 / 1000000000)].map fun w =>
      scatter (G := fun _ => 1) rowNum w r) (0 : PState (fun _ => 2) ℚ) = 0 := by
  have S := rowSplit (K := ℚ)
  have hn : sourceNorm2 (K := ℚ) rowCase (sourceField rowCase [rowWave (8 / 1000000000)]) = 128 / 1000000000000000000 := by
    decide +kernel
  have hr : ∀ r, sourceNorm2 (K := ℚ) (rowRank r).own (sourceField (rowRank r).own ([rowWave (8 / 1000000000)].map fun w =>
      scatter (N := fun _ => 2) (G := fun _ => 1) rowNum w r)) = 64 / 1000000000000000000 := by
    rw [Fin.forall_fin_two]
    constructor <;> decide +kernel
  have hz : ∀ f d i, globalMult (K := ℚ) rowCase.prob 0 f d i = 0 := by
    intro f
    cases f <;> decide +kernel
  refine ⟨S, ?_, ?_⟩
  · unfold sourceRhs
    rw [hn, if_neg (by unfold skip2; norm_num), hz, zero_sub, neg_ne_zero]
    decide +kernel
  · funext r f d k
    have e := S.rhs [rowWave (8 / 1000000000)] 0 r f d k
    rw [hr, if_pos (by unfold skip2; norm_num), hz, sub_zero] at e
    exact e

/-- Waves of this size and larger are launched alike. -/
example : sourceField (K := ℚ) rowCase [rowWave 1] .E 1 1 ≠ 0 ∧ ∀ r : Fin 2, (∀ f d (k : Fin 2),
    sourceField (K := ℚ) rowCase [rowWave 1] f d (rowNum r (Fin.castAdd _ k)) = 0) ∨
    ∃ f d, ∃ k : Fin 2, 1 / 100000000 ≤ |sourceField (K := ℚ) rowCase [rowWave 1] f d (rowNum r (Fin.castAdd _ k))| := by
  refine ⟨by decide +kernel, ?_⟩
  rw [Fin.forall_fin_two]
  constructor
  · refine .inr ⟨.E, 1, 1, ?_⟩
    rw [show sourceField (K := ℚ) rowCase [rowWave 1] .E 1 (rowNum 0 (Fin.castAdd 1 1)) = 1 / 2 by decide +kernel]
    norm_num
  · refine .inr ⟨.E, 1, 0, ?_⟩
    rw [show sourceField (K := ℚ) rowCase [rowWave 1] .E 1 (rowNum 1 (Fin.castAdd 1 0)) = 1 / 2 by decide +kernel]
    norm_num

/-- The line meets the hypotheses of C128. -/
theorem row_good : Op.Spec.Good (rowCase (K := ℝ)).prob (fun _ => 1) := by
  refine ⟨by simp [rowCase, Case.prob], ?_, ?_, ?_, ?_, ?_, ?_, ?_⟩
  · intro f hf p hp
    simp only [allFaces, Case.prob, rowCase, List.map_cons, List.map_nil, List.cons_append, List.nil_append,
      List.mem_cons, List.not_mem_nil, or_false] at hf
    rcases hf with rfl | rfl | rfl | rfl | rfl <;> simp only [rowFace, rowEnd, List.mem_singleton] at hp <;> subst hp <;>
      constructor <;> simp [normalTerm, Case.prob, rowCase]
  · intro d hd v u
    have : d = 0 := by apply Fin.ext; simp [rowCase, Case.prob] at hd; simp [hd]
    subst this
    simp [allFaces, Case.prob, rowCase, faceBoundary, rowFace, rowEnd, tr1, tr2, normalTerm]
    try ring
  · intro q hq; simp [Case.prob, rowCase] at hq; rcases hq with rfl | rfl <;> simp
  · intro q hq; simp [Case.prob, rowCase] at hq; rcases hq with rfl | rfl <;> simp [rowEnd]
  · intro q hq; simp [Case.prob, rowCase] at hq; rcases hq with rfl | rfl | rfl <;> simp
  · intro f; simp [Case.prob, rowCase]
  · intro f; simp

theorem row_pos (u : State (Fin 4) ℝ) (h : u ≠ 0) : 0 < energy (fun _ => (1 : Matrix (Fin 4) (Fin 4) ℝ)) u := by
  have e : energy (fun _ => (1 : Matrix (Fin 4) (Fin 4) ℝ)) u =
      1 / 2 * ∑ d : Dir, (∑ i, u .E d i ^ 2 + ∑ i, u .H d i ^ 2) := by
    simp [energy, dotProduct, sq]
  rw [e]
  obtain ⟨f, d, i, hfd⟩ : ∃ f d i, u f d i ≠ 0 := by
    by_contra hc
    push Not at hc
    exact h (funext fun f => funext fun d => funext fun i => hc f d i)
  have hp : ∀ f, 0 ≤ ∑ i, u f d i ^ 2 := fun f => Finset.sum_nonneg fun i _ => sq_nonneg _
  have hs : 0 < ∑ i, u f d i ^ 2 :=
    Finset.sum_pos' (fun i _ => sq_nonneg _) ⟨i, Finset.mem_univ i, by positivity⟩
  have : 0 < ∑ d : Dir, (∑ i, u .E d i ^ 2 + ∑ i, u .H d i ^ 2) := by
    apply Finset.sum_pos' (fun d _ => by positivity)
    refine ⟨d, Finset.mem_univ d, ?_⟩
    cases f
    · exact add_pos_of_pos_of_nonneg hs (hp _)
    · exact add_pos_of_nonneg_of_pos (hp _) hs
  linarith

example : Op.Spec.Good (rowCase (K := ℝ)).prob (fun _ => 1) ∧ 0 ≤ (rowCase (K := ℝ)).alpha ∧
    (∀ v : Fin 4 → ℝ, 0 ≤ v ⬝ᵥ (rowCase (K := ℝ)).Msig.mulVec v) ∧
    (∀ u : State (Fin 4) ℝ, u ≠ 0 → 0 < energy (fun _ => (1 : Matrix (Fin 4) (Fin 4) ℝ)) u) ∧
    SplitCase (K := ℝ) rowCase rowRank rowSrc rowNum rowSide1 rowSide2 :=
  ⟨row_good, by simp [rowCase], fun v => by
    simp only [rowCase, Matrix.one_mulVec]
    exact Finset.sum_nonneg fun i _ => mul_self_nonneg _, row_pos, rowSplit⟩

end example2

end Dgtd.Par
