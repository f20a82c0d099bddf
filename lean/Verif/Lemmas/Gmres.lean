/-
Least residuals over Krylov spaces and the outcomes of the iteration.
-/
import Verif.Model.Gmres
import Mathlib.Analysis.InnerProductSpace.PiL2
import Mathlib.Analysis.InnerProductSpace.Projection.Basic
import Mathlib.LinearAlgebra.Matrix.DotProduct

set_option linter.unusedSectionVars false

namespace Dgtd.Gmres

open Matrix

variable {ι : Type} [Fintype ι] [DecidableEq ι]

/-! ### Lengths -/

lemma len_eq (v : ι → ℝ) : len v = ‖WithLp.toLp 2 v‖ := by
  rw [EuclideanSpace.norm_eq]
  unfold len dotProduct
  congr 1
  refine Finset.sum_congr rfl fun i _ => ?_
  simp [sq]

lemma len_nonneg (v : ι → ℝ) : 0 ≤ len v := Real.sqrt_nonneg _

lemma dot_nonneg (v : ι → ℝ) : 0 ≤ v ⬝ᵥ v := Finset.sum_nonneg fun _ _ => mul_self_nonneg _

lemma len_sq (v : ι → ℝ) : len v ^ 2 = v ⬝ᵥ v := Real.sq_sqrt (dot_nonneg v)

lemma len_zero : len (0 : ι → ℝ) = 0 := by simp [len]

lemma len_smul (c : ℝ) (v : ι → ℝ) : len (c • v) = |c| * len v := by
  rw [len_eq, len_eq, WithLp.toLp_smul, norm_smul, Real.norm_eq_abs]

lemma len_add_le (v w : ι → ℝ) : len (v + w) ≤ len v + len w := by
  rw [len_eq, len_eq, len_eq, WithLp.toLp_add]
  exact norm_add_le _ _

lemma len_pos {v : ι → ℝ} (h : v ≠ 0) : 0 < len v := by
  refine Real.sqrt_pos.2 (lt_of_le_of_ne (dot_nonneg v) fun e => h ?_)
  exact dotProduct_self_eq_zero.1 e.symm

lemma eq_zero_of_len {v : ι → ℝ} (h : len v ≤ 0) : v = 0 := by
  by_contra hv
  exact absurd (len_pos hv) (not_lt.2 h)

lemma len_le_of_sq {v : ι → ℝ} {c : ℝ} (hc : 0 ≤ c) (h : v ⬝ᵥ v ≤ c ^ 2) : len v ≤ c :=
  Real.sqrt_le_iff.2 ⟨hc, h⟩

/-! ### Least residuals -/

variable {J : Matrix ι ι ℝ} {b : ι → ℝ} {tol : ℝ}

lemma krylov_mono {r : ι → ℝ} {i j : ℕ} (h : i ≤ j) : krylov J r i ≤ krylov J r j :=
  Submodule.span_mono fun _ ⟨k, hk, e⟩ => ⟨k, hk.trans_le h, e⟩

theorem best_exists (J : Matrix ι ι ℝ) (b x : ι → ℝ) (i : ℕ) : ∃ y, Best J b x i y := by
  obtain ⟨T, hT⟩ : ∃ T : (ι → ℝ) →ₗ[ℝ] EuclideanSpace ℝ ι, T = (WithLp.linearEquiv 2 ℝ (ι → ℝ)).symm.toLinearMap ∘ₗ J.mulVecLin :=
    ⟨_, rfl⟩
  have hTa : ∀ v, T v = WithLp.toLp 2 (J *ᵥ v) := fun v => by rw [hT]; rfl
  obtain ⟨W, hW⟩ : ∃ W, W = (krylov J (res J b x) i).map T := ⟨_, rfl⟩
  have hc : IsComplete (W : Set (EuclideanSpace ℝ ι)) := Submodule.complete_of_finiteDimensional W
  obtain ⟨v, hv, hmin⟩ := W.exists_norm_eq_iInf_of_complete_subspace hc (WithLp.toLp 2 (res J b x))
  rw [hW] at hv
  obtain ⟨d, hd, rfl⟩ := Submodule.mem_map.1 hv
  refine ⟨x + d, by simpa using hd, fun z hz => ?_⟩
  have hr : ∀ d : ι → ℝ, WithLp.toLp 2 (res J b (x + d)) = WithLp.toLp 2 (res J b x) - T d := by
    intro d
    rw [hTa, ← WithLp.toLp_sub]
    congr 1
    unfold res
    rw [mulVec_add]
    abel
  have hz' : x + (z - x) = z := by abel
  rw [len_eq, len_eq, ← hz', hr, hr, hmin]
  refine ciInf_le ⟨0, ?_⟩ (⟨T (z - x), ?_⟩ : W)
  · rintro _ ⟨w, rfl⟩
    exact norm_nonneg _
  · rw [hW]
    exact Submodule.mem_map_of_mem hz

lemma Best.self {x y : ι → ℝ} {i : ℕ} (h : Best J b x i y) : len (res J b y) ≤ len (res J b x) :=
  h.least x (by simp)

/-- All the approximations of least residual have the same residual. -/
lemma Best.same {x y y' : ι → ℝ} {i : ℕ} (h : Best J b x i y) (h' : Best J b x i y') : J *ᵥ y = J *ᵥ y' := by
  have e : len (res J b y) = len (res J b y') := le_antisymm (h.least _ h'.reached) (h'.least _ h.reached)
  have m : len (res J b y) ≤ len (res J b ((1 / 2 : ℝ) • (y + y'))) := by
    refine h.least _ ?_
    have : (1 / 2 : ℝ) • (y + y') - x = (1 / 2 : ℝ) • ((y - x) + (y' - x)) := by module
    rw [this]
    exact Submodule.smul_mem _ _ (Submodule.add_mem _ h.reached h'.reached)
  have hm : res J b ((1 / 2 : ℝ) • (y + y')) = (1 / 2 : ℝ) • (res J b y + res J b y') := by
    unfold res
    rw [mulVec_smul, mulVec_add]
    module
  rw [hm] at m
  obtain ⟨p, hp⟩ : ∃ p, p = res J b y := ⟨_, rfl⟩
  obtain ⟨p', hp'⟩ : ∃ p', p' = res J b y' := ⟨_, rfl⟩
  rw [← hp, ← hp'] at e
  rw [← hp, ← hp'] at m
  have m2 := pow_le_pow_left₀ (len_nonneg _) m 2
  have e2 : p ⬝ᵥ p = p' ⬝ᵥ p' := by rw [← len_sq, ← len_sq, e]
  rw [len_sq, len_sq] at m2
  simp only [smul_dotProduct, dotProduct_smul, add_dotProduct, dotProduct_add, smul_eq_mul] at m2
  have c : p' ⬝ᵥ p = p ⬝ᵥ p' := dotProduct_comm _ _
  have z : (p - p') ⬝ᵥ (p - p') = 0 := by
    refine le_antisymm ?_ (dot_nonneg _)
    simp only [sub_dotProduct, dotProduct_sub]
    rw [c] at m2 ⊢
    linarith
  have := sub_eq_zero.1 (dotProduct_self_eq_zero.1 z)
  rw [hp, hp'] at this
  unfold res at this
  exact sub_right_injective this

/-! ### Outcomes -/

theorem iterates_exists (J : Matrix ι ι ℝ) (b : ι → ℝ) (tol : ℝ) (n : ℕ) : ∀ x, ∃ z, Iterates J b tol n x z := by
  classical
  induction n using Nat.strong_induction_on with
  | _ n ih =>
    intro x
    by_cases h : len (res J b x) ≤ tol
    · exact ⟨x, .met n x h⟩
    have h := lt_of_not_ge h
    cases n with
    | zero => exact ⟨x, .spent x h⟩
    | succ n =>
      have ex : ∃ i, 0 < i ∧ i ≤ min kdim (n + 1) ∧ (i = min kdim (n + 1) ∨ ∃ w, Best J b x i w ∧ len (res J b w) ≤ tol) :=
        ⟨min kdim (n + 1), lt_min (by decide) (Nat.succ_pos n), le_refl _, Or.inl rfl⟩
      obtain ⟨i, hi⟩ : ∃ i, i = Nat.find ex := ⟨_, rfl⟩
      obtain ⟨h0, h1, h2⟩ := Nat.find_spec ex
      have hlt : ∀ j < i, 0 < j → ∀ w, Best J b x j w → tol < len (res J b w) := by
        intro j hj h0j w hw
        by_contra hc
        exact Nat.find_min ex (hi ▸ hj) ⟨h0j, (hi ▸ hj).le.trans h1, Or.inr ⟨w, hw, not_lt.1 hc⟩⟩
      rw [← hi] at h0 h1 h2
      obtain ⟨y, hy⟩ := best_exists J b x i
      obtain ⟨z, hz⟩ := ih (n + 1 - i) (by omega) y
      refine ⟨z, .cycle (n + 1) i x y z h h0 (h1.trans (min_le_left _ _)) (h1.trans (min_le_right _ _)) hy hlt ?_ hz⟩
      rcases h2 with h2 | ⟨w, hw, h2⟩
      · exact Or.inr h2
      · exact Or.inl ((hy.least w hw.reached).trans h2)

theorem iterates_unique (hJ : ∀ v, J *ᵥ v = 0 → v = 0) {n : ℕ} {x z z' : ι → ℝ} (h : Iterates J b tol n x z)
    (h' : Iterates J b tol n x z') : z = z' := by
  induction h generalizing z' with
  | met n x hx =>
    cases h' with
    | met => rfl
    | spent _ hx' => exact absurd hx (not_le.2 hx')
    | cycle _ _ _ _ _ hx' => exact absurd hx (not_le.2 hx')
  | spent x hx =>
    cases h' with
    | met _ _ hx' => exact absurd hx' (not_le.2 hx)
    | spent => rfl
    | cycle _ i _ _ _ _ hi _ hn => omega
  | cycle n i x y z hx hi hk hn best busy ends rest ih =>
    cases h' with
    | met _ _ hx' => exact absurd hx' (not_le.2 hx)
    | spent _ _ => omega
    | cycle _ i' _ y' _ _ hi' hk' hn' best' busy' ends' rest' =>
      have e : i = i' := by
        rcases lt_trichotomy i i' with hlt | he | hlt
        · rcases ends with he | he
          · exact absurd he (not_le.2 (busy' i hlt hi y best))
          · have := le_min hk' hn'
            omega
        · exact he
        · rcases ends' with he | he
          · exact absurd he (not_le.2 (busy i' hlt hi' y' best'))
          · have := le_min hk hn
            omega
      subst e
      have e : y = y' := by
        refine sub_eq_zero.1 (hJ _ ?_)
        rw [mulVec_sub, best.same best', sub_self]
      subst e
      exact ih rest'

/-- The residual never grows. -/
theorem Iterates.never_worse {n : ℕ} {x z : ι → ℝ} (h : Iterates J b tol n x z) : len (res J b z) ≤ len (res J b x) := by
  induction h with
  | met => exact le_refl _
  | spent => exact le_refl _
  | cycle n i x y z _ _ _ _ best _ _ _ ih => exact ih.trans best.self

/-! ### Richardson's iteration, which the method cannot do worse than -/

/-- `i` steps from `x` with the factor `ω`. -/
noncomputable def richardson (J : Matrix ι ι ℝ) (b : ι → ℝ) (ω : ℝ) (x : ι → ℝ) : ℕ → ι → ℝ
  | 0 => x
  | i + 1 => richardson J b ω x i + ω • res J b (richardson J b ω x i)

lemma krylov_mul {r v : ι → ℝ} {i : ℕ} (h : v ∈ krylov J r i) : J *ᵥ v ∈ krylov J r (i + 1) := by
  unfold krylov at h ⊢
  induction h using Submodule.span_induction with
  | mem v hv =>
    obtain ⟨j, hj, rfl⟩ := hv
    exact Submodule.subset_span ⟨j + 1, by omega, by rw [mulVec_mulVec, pow_succ']⟩
  | zero => rw [mulVec_zero]; exact Submodule.zero_mem _
  | add v w _ _ hv hw => rw [mulVec_add]; exact Submodule.add_mem _ hv hw
  | smul c v _ hv => rw [mulVec_smul]; exact Submodule.smul_mem _ _ hv

lemma krylov_self (J : Matrix ι ι ℝ) (r : ι → ℝ) (i : ℕ) : r ∈ krylov J r (i + 1) :=
  Submodule.subset_span ⟨0, by omega, by rw [pow_zero, one_mulVec]⟩

lemma res_shift (x d : ι → ℝ) : res J b (x + d) = res J b x - J *ᵥ d := by
  unfold res
  rw [mulVec_add]
  abel

lemma richardson_mem (ω : ℝ) (x : ι → ℝ) : ∀ i, richardson J b ω x i - x ∈ krylov J (res J b x) i
  | 0 => by simp [richardson]
  | i + 1 => by
    have ih := richardson_mem ω x i
    have e : richardson J b ω x (i + 1) - x = (richardson J b ω x i - x) +
        ω • (res J b x - J *ᵥ (richardson J b ω x i - x)) := by
      rw [← res_shift, add_sub_cancel]
      unfold richardson
      cases i <;> · simp only [richardson]; abel
    rw [e]
    exact Submodule.add_mem _ (krylov_mono (Nat.le_succ i) ih)
      (Submodule.smul_mem _ _ (Submodule.sub_mem _ (krylov_self J _ i) (krylov_mul ih)))

lemma richardson_res {ω ρ : ℝ} (hρ : 0 ≤ ρ) (h : ∀ v : ι → ℝ, len (v - ω • (J *ᵥ v)) ≤ ρ * len v) (x : ι → ℝ) :
    ∀ i, len (res J b (richardson J b ω x i)) ≤ ρ ^ i * len (res J b x)
  | 0 => by simp [richardson]
  | i + 1 => by
    have ih := richardson_res hρ h x i
    rw [richardson, res_shift, mulVec_smul]
    refine (h _).trans ?_
    rw [pow_succ, mul_comm (ρ ^ i), mul_assoc]
    exact mul_le_mul_of_nonneg_left ih hρ

/-- How far the residual is reduced when the iterations are spent. -/
theorem Iterates.reduced {ω ρ : ℝ} (hρ : 0 ≤ ρ) (h : ∀ v : ι → ℝ, len (v - ω • (J *ᵥ v)) ≤ ρ * len v) {n : ℕ}
    {x z : ι → ℝ} (hz : Iterates J b tol n x z) :
    len (res J b z) ≤ tol ∨ len (res J b z) ≤ ρ ^ n * len (res J b x) := by
  induction hz with
  | met _ _ hx => exact Or.inl hx
  | spent x _ => exact Or.inr (by simp)
  | cycle n i x y z _ _ _ hn best _ _ _ ih =>
    refine ih.imp_right fun hz => hz.trans ?_
    have := (best.least _ (richardson_mem ω x i)).trans (richardson_res hρ h x i)
    calc ρ ^ (n - i) * len (res J b y) ≤ ρ ^ (n - i) * (ρ ^ i * len (res J b x)) :=
          mul_le_mul_of_nonneg_left this (pow_nonneg hρ _)
      _ = ρ ^ n * len (res J b x) := by rw [← mul_assoc, ← pow_add, Nat.sub_add_cancel hn]

/-! ### A system whose right-hand side is zero -/

lemma res_zero_smul (s : ℝ) (x : ι → ℝ) : res J 0 (s • x) = s • res J 0 x := by
  unfold res
  rw [mulVec_smul]
  module

lemma krylov_smul {r : ι → ℝ} {s : ℝ} {i : ℕ} {v : ι → ℝ} (h : v ∈ krylov J r i) : s • v ∈ krylov J (s • r) i := by
  unfold krylov at h ⊢
  induction h using Submodule.span_induction with
  | mem v hv =>
    obtain ⟨j, hj, rfl⟩ := hv
    exact Submodule.subset_span ⟨j, hj, by rw [mulVec_smul]⟩
  | zero => rw [smul_zero]; exact Submodule.zero_mem _
  | add v w _ _ hv hw => rw [smul_add]; exact Submodule.add_mem _ hv hw
  | smul c v _ hv => rw [smul_comm]; exact Submodule.smul_mem _ _ hv

lemma Best.scale {s : ℝ} (hs : 0 < s) {x y : ι → ℝ} {i : ℕ} (h : Best J 0 x i y) : Best J 0 (s • x) i (s • y) where
  reached := by
    rw [← smul_sub, res_zero_smul]
    exact krylov_smul h.reached
  least := fun z hz => by
    have e : z = s • (s⁻¹ • z) := by rw [smul_smul, mul_inv_cancel₀ hs.ne', one_smul]
    rw [e, res_zero_smul, res_zero_smul, len_smul, len_smul]
    refine mul_le_mul_of_nonneg_left (h.least _ ?_) (abs_nonneg _)
    have := krylov_smul (s := s⁻¹) hz
    rwa [res_zero_smul, smul_smul, inv_mul_cancel₀ hs.ne', one_smul, smul_sub, smul_smul, inv_mul_cancel₀ hs.ne', one_smul] at this

theorem Iterates.scale {s : ℝ} (hs : 0 < s) {n : ℕ} {x z : ι → ℝ} (h : Iterates J 0 tol n x z) :
    Iterates J 0 (s * tol) n (s • x) (s • z) := by
  have hl : ∀ x, len (res J 0 (s • x)) = s * len (res J 0 x) := fun x => by
    rw [res_zero_smul, len_smul, abs_of_pos hs]
  induction h with
  | met n x hx => exact .met _ _ (by rw [hl]; exact mul_le_mul_of_nonneg_left hx hs.le)
  | spent x hx => exact .spent _ (by rw [hl]; exact mul_lt_mul_of_pos_left hx hs)
  | cycle n i x y z hx hi hk hn best busy ends _ ih =>
    refine .cycle n i _ (s • y) _ (by rw [hl]; exact mul_lt_mul_of_pos_left hx hs) hi hk hn (best.scale hs) ?_ ?_ ih
    · intro j hj h0 w hw
      have e : w = s • (s⁻¹ • w) := by rw [smul_smul, mul_inv_cancel₀ hs.ne', one_smul]
      rw [e, hl]
      refine mul_lt_mul_of_pos_left (busy j hj h0 _ ?_) hs
      have := hw.scale (inv_pos.2 hs)
      rwa [smul_smul, inv_mul_cancel₀ hs.ne', one_smul] at this
    · exact ends.imp_left fun h => by rw [hl]; exact mul_le_mul_of_nonneg_left h hs.le

end Dgtd.Gmres
