/-
Taylor polynomials of functions of time and several coordinates.
-/
import Verif.Spec.Convergence
import Verif.Lemmas.Simplex
import Mathlib.Analysis.Calculus.FDeriv.Symmetric
import Mathlib.Analysis.Calculus.MeanValue
import Mathlib.Analysis.Calculus.Deriv.Prod

namespace Dgtd.Galerkin
open MvPolynomial Spec
open scoped ContDiff

variable {D : Nat}

lemma contDiff_dir {E : Type} [NormedAddCommGroup E] [NormedSpace ℝ E] {g : E → ℝ} (hg : ContDiff ℝ ∞ g) (v : E) :
    ContDiff ℝ ∞ fun z => fderiv ℝ g z v := (hg.fderiv_right (m := ∞) (by simp)).clm_apply contDiff_const

lemma dir_comm {E : Type} [NormedAddCommGroup E] [NormedSpace ℝ E] {g : E → ℝ} (hg : ContDiff ℝ ∞ g) (v w : E) :
    (fun z => fderiv ℝ (fun z => fderiv ℝ g z v) z w) = fun z => fderiv ℝ (fun z => fderiv ℝ g z w) z v := by
  funext z
  have hd : DifferentiableAt ℝ (fderiv ℝ g) z := (hg.fderiv_right (m := ∞) (by simp)).differentiable (by simp) z
  have e : ∀ v, fderiv ℝ (fun z => fderiv ℝ g z v) z = (fderiv ℝ (fderiv ℝ g) z).flip v := fun v => by
    have := (hd.hasFDerivAt.clm_apply (hasFDerivAt_const v z)).fderiv
    rw [this]; ext w; simp
  rw [e, e]
  have := (hg.contDiffAt (x := z)).isSymmSndFDerivAt (by rw [minSmoothness_of_isRCLikeNormedField]; exact WithTop.coe_le_coe.2 le_top)
  exact this w v

lemma contDiff_dx {g : Event D → ℝ} (hg : ContDiff ℝ ∞ g) (i : Fin D) : ContDiff ℝ ∞ (dx i g) := contDiff_dir hg _

lemma contDiff_dt {g : Event D → ℝ} (hg : ContDiff ℝ ∞ g) : ContDiff ℝ ∞ (dt g) := contDiff_dir hg _

lemma dx_comm {g : Event D → ℝ} (hg : ContDiff ℝ ∞ g) (i j : Fin D) : dx i (dx j g) = dx j (dx i g) := dir_comm hg _ _

lemma dt_dx {g : Event D → ℝ} (hg : ContDiff ℝ ∞ g) (i : Fin D) : dt (dx i g) = dx i (dt g) := dir_comm hg _ _

/-- Homogeneous part of degree `k`, times `k!`, of the Taylor polynomial around `x0` at the time `t`. -/
noncomputable def hom (x0 : Fin D → ℝ) (t : ℝ) : Nat → (Event D → ℝ) → Poly D ℝ
  | 0, g => C (g (t, x0))
  | k + 1, g => ∑ i, (X i - C (x0 i)) * hom x0 t k (dx i g)

/-- Taylor polynomial of degree `k`. -/
noncomputable def tay (x0 : Fin D → ℝ) (t : ℝ) (k : Nat) (g : Event D → ℝ) : Poly D ℝ :=
  ∑ j ∈ Finset.range (k + 1), C (1 / (j.factorial : ℝ)) * hom x0 t j g

lemma hom_pderiv (x0 : Fin D → ℝ) (t : ℝ) (m : Fin D) : ∀ (k : Nat) {g : Event D → ℝ} (_ : ContDiff ℝ ∞ g),
    pderiv m (hom x0 t (k + 1) g) = C ((k + 1 : ℕ) : ℝ) * hom x0 t k (dx m g)
  | 0, g, hg => by
    simp only [hom, map_sum]
    rw [Finset.sum_eq_single m]
    · simp [pderiv_X]
    · intro b _ hb
      simp [pderiv_X, hb.symm]
    · simp
  | k + 1, g, hg => by
    have ih : ∀ i, pderiv m (hom x0 t (k + 1) (dx i g)) = C ((k + 1 : ℕ) : ℝ) * hom x0 t k (dx i (dx m g)) := fun i => by
      rw [hom_pderiv x0 t m k (contDiff_dx hg i), dx_comm hg]
    rw [hom, map_sum]
    have h1 : ∀ i, pderiv m ((X i - C (x0 i)) * hom x0 t (k + 1) (dx i g)) =
        (if i = m then hom x0 t (k + 1) (dx m g) else 0) +
          C ((k + 1 : ℕ) : ℝ) * ((X i - C (x0 i)) * hom x0 t k (dx i (dx m g))) := by
      intro i
      rw [pderiv_mul, ih, map_sub, pderiv_C, sub_zero]
      by_cases h : i = m
      · subst h; simp only [pderiv_X_self, one_mul, if_true]; ring
      · rw [pderiv_X_of_ne h, zero_mul, if_neg h]; ring
    simp only [h1]
    rw [Finset.sum_add_distrib, ← Finset.mul_sum]
    simp only [Finset.sum_ite_eq', Finset.mem_univ, if_true]
    change hom x0 t (k + 1) (dx m g) + C ((k + 1 : ℕ) : ℝ) * hom x0 t (k + 1) (dx m g) = _
    push_cast
    simp only [map_add, map_one]
    ring

lemma tay_pderiv (x0 : Fin D → ℝ) (t : ℝ) (m : Fin D) (k : Nat) {g : Event D → ℝ} (hg : ContDiff ℝ ∞ g) :
    pderiv m (tay x0 t (k + 1) g) = tay x0 t k (dx m g) := by
  unfold tay
  rw [Finset.sum_range_succ' _ (k + 1), map_add, map_sum]
  have h0 : pderiv m (C (1 / ((0 : ℕ).factorial : ℝ)) * hom x0 t 0 g) = 0 := by simp [hom]
  rw [h0, add_zero]
  refine Finset.sum_congr rfl fun j _ => ?_
  rw [pderiv_C_mul, hom_pderiv x0 t m j hg, ← mul_assoc, ← C_mul, Nat.factorial_succ]
  congr 2
  have : ((j + 1 : ℕ) : ℝ) ≠ 0 := by positivity
  have h2 : (j.factorial : ℝ) ≠ 0 := by positivity
  push_cast at this ⊢
  field_simp

lemma tay_pderiv_zero (x0 : Fin D → ℝ) (t : ℝ) (m : Fin D) (g : Event D → ℝ) : pderiv m (tay x0 t 0 g) = 0 := by
  simp [tay, hom]

lemma tay_eval (x0 : Fin D → ℝ) (t : ℝ) (k : Nat) (g : Event D → ℝ) : eval x0 (tay x0 t k g) = g (t, x0) := by
  unfold tay
  rw [Finset.sum_range_succ' _ k, map_add, map_sum]
  rw [Finset.sum_eq_zero fun j _ => by simp [hom]]
  simp [hom]

lemma hom_degree (x0 : Fin D → ℝ) (t : ℝ) : ∀ (k : Nat) (g : Event D → ℝ), (hom x0 t k g).totalDegree ≤ k
  | 0, g => by simp [hom]
  | k + 1, g => by
    refine degree_sum_le fun i _ => ?_
    rw [Nat.add_comm]
    exact degree_mul_le (degree_sub_le (by simp) (by simp)) (hom_degree x0 t k _)

lemma tay_degree (x0 : Fin D → ℝ) (t : ℝ) (k : Nat) (g : Event D → ℝ) : (tay x0 t k g).totalDegree ≤ k :=
  degree_sum_le fun j hj => by
    rw [← Nat.zero_add k]
    exact degree_mul_le (by simp) ((hom_degree x0 t j g).trans (Nat.lt_succ_iff.1 (Finset.mem_range.1 hj)))

/-- Value of a polynomial along a segment. -/
lemma eval_segment (q : Poly D ℝ) (x v : Fin D → ℝ) (s : ℝ) :
    HasDerivAt (fun s => eval (fun i => x i + s * v i) q) (∑ i, v i * eval (fun i => x i + s * v i) (pderiv i q)) s := by
  induction q using MvPolynomial.induction_on with
  | C a => simpa using hasDerivAt_const s a
  | add p q hp hq =>
    simp only [map_add, mul_add, Finset.sum_add_distrib]
    exact hp.add hq
  | mul_X p j hp =>
    have h1 : HasDerivAt (fun s => x j + s * v j) (v j) s := by
      simpa using ((hasDerivAt_id s).mul_const (v j)).const_add (x j)
    have e : (∑ i, v i * eval (fun i => x i + s * v i) (pderiv i (p * X j))) =
        (∑ i, v i * eval (fun i => x i + s * v i) (pderiv i p)) * (x j + s * v j) + eval (fun i => x i + s * v i) p * v j := by
      rw [Finset.sum_mul]
      simp only [pderiv_mul, map_add, map_mul, eval_X]
      rw [← sub_eq_iff_eq_add', ← Finset.sum_sub_distrib]
      have e2 : ∀ i, v i * (eval (fun i => x i + s * v i) (pderiv i p) * (x j + s * v j) +
          eval (fun i => x i + s * v i) p * eval (fun i => x i + s * v i) (pderiv i (X j))) -
          v i * eval (fun i => x i + s * v i) (pderiv i p) * (x j + s * v j) =
          v i * (eval (fun i => x i + s * v i) p * eval (fun i => x i + s * v i) (pderiv i (X j))) := fun i => by ring
      simp only [e2]
      · rw [Finset.sum_eq_single j]
        · simp; ring
        · intro b _ hb
          simp [pderiv_X_of_ne hb.symm]
        · simp
    rw [e]
    simp only [map_mul, eval_X]
    exact hp.mul h1

lemma segment_deriv {g : Event D → ℝ} (hg : ContDiff ℝ ∞ g) (t : ℝ) (x v : Fin D → ℝ) (s : ℝ) :
    HasDerivAt (fun s => g (t, fun i => x i + s * v i)) (∑ i, v i * dx i g (t, fun i => x i + s * v i)) s := by
  have hp : HasDerivAt (fun s : ℝ => ((t, fun i => x i + s * v i) : Event D)) ((0 : ℝ), v) s := by
    refine (hasDerivAt_const s t).prodMk (hasDerivAt_pi.2 fun i => ?_)
    simpa using ((hasDerivAt_id s).mul_const (v i)).const_add (x i)
  have := (hg.differentiable (by simp) (t, fun i => x i + s * v i)).hasFDerivAt.comp_hasDerivAt s hp
  have hv : ((0 : ℝ), v) = ∑ i, v i • ((0, Pi.single i 1) : Event D) := by
    refine Prod.ext ?_ ?_
    · simp [Prod.fst_sum]
    · rw [Prod.snd_sum]; funext j; simp [Finset.sum_apply, Pi.single_apply]
  rw [hv, map_sum] at this
  simp only [map_smul, smul_eq_mul] at this
  exact this

/-- The remainder of the Taylor polynomial. -/
lemma tay_error (K : Set (Fin D → ℝ)) (x0 : Fin D → ℝ) (h B t : ℝ)
    (hK : ∀ x ∈ K, ∀ s, 0 ≤ s → s ≤ 1 → (fun i => x0 i + s * (x i - x0 i)) ∈ K) (hh : ∀ x ∈ K, ∀ i, |x i - x0 i| ≤ h) :
    ∀ (k : Nat) {g : Event D → ℝ} (_ : ContDiff ℝ ∞ g) (_ : ∀ l : List (Fin D), l.length = k + 1 → ∀ x ∈ K, |dxs l g (t, x)| ≤ B),
      ∀ x ∈ K, |g (t, x) - eval x (tay x0 t k g)| ≤ (D * h) ^ (k + 1) * B := by
  intro k
  induction k with
  | zero =>
    intro g hg hb x hx
    have h0 : 0 ≤ h ∨ D = 0 := by
      rcases Nat.eq_zero_or_pos D with h | hD
      · exact Or.inr h
      · exact Or.inl ((abs_nonneg _).trans (hh x hx ⟨0, hD⟩))
    have key := norm_image_sub_le_of_norm_deriv_le_segment_01' (C := D * h * B)
      (f := fun s => g (t, fun i => x0 i + s * (x i - x0 i)) - eval (fun i => x0 i + s * (x i - x0 i)) (tay x0 t 0 g))
      (fun s _ => ((segment_deriv hg t x0 (fun i => x i - x0 i) s).sub (eval_segment (tay x0 t 0 g) x0 (fun i => x i - x0 i) s)).hasDerivWithinAt) (by
        intro s hs
        simp only [tay_pderiv_zero, map_zero, mul_zero, Finset.sum_const_zero, sub_zero]
        refine (norm_sum_le _ _).trans ?_
        refine (Finset.sum_le_sum fun i _ => ?_).trans_eq (Finset.sum_const (h * B)) |>.trans_eq (by simp; ring)
        rw [norm_mul]
        refine mul_le_mul (hh x hx i) ?_ (norm_nonneg _) ((abs_nonneg _).trans (hh x hx i))
        exact hb [i] rfl _ (hK x hx s hs.1 hs.2.le))
    simpa [tay_eval] using key
  | succ k ih =>
    intro g hg hb x hx
    have key := norm_image_sub_le_of_norm_deriv_le_segment_01' (C := D * h * ((D * h) ^ (k + 1) * B))
      (f := fun s => g (t, fun i => x0 i + s * (x i - x0 i)) - eval (fun i => x0 i + s * (x i - x0 i)) (tay x0 t (k + 1) g))
      (fun s _ => ((segment_deriv hg t x0 (fun i => x i - x0 i) s).sub
        (eval_segment (tay x0 t (k + 1) g) x0 (fun i => x i - x0 i) s)).hasDerivWithinAt) (by
        intro s hs
        simp only [tay_pderiv x0 t _ k hg]
        rw [← Finset.sum_sub_distrib]
        refine (norm_sum_le _ _).trans ?_
        refine (Finset.sum_le_sum fun i _ => ?_).trans_eq (Finset.sum_const (h * ((D * h) ^ (k + 1) * B))) |>.trans_eq (by simp; ring)
        rw [← mul_sub, norm_mul]
        refine mul_le_mul (hh x hx i) ?_ (norm_nonneg _) ((abs_nonneg _).trans (hh x hx i))
        refine ih (contDiff_dx hg i) (fun l hl y hy => ?_) _ (hK x hx s hs.1 hs.2.le)
        have := hb (l ++ [i]) (by simp [hl]) y hy
        simpa [dxs] using this)
    have e : (D * h) ^ (k + 1 + 1) * B = D * h * ((D * h) ^ (k + 1) * B) := by ring
    rw [e]
    simpa [tay_eval] using key

/-! ### change in time -/

lemma time_deriv {g : Event D → ℝ} (hg : ContDiff ℝ ∞ g) (x : Fin D → ℝ) (t : ℝ) : HasDerivAt (fun t => g (t, x)) (dt g (t, x)) t := by
  have hp : HasDerivAt (fun s : ℝ => ((s, x) : Event D)) ((1 : ℝ), (0 : Fin D → ℝ)) t := (hasDerivAt_id t).prodMk (hasDerivAt_const t x)
  exact (hg.differentiable (by simp) (t, x)).hasFDerivAt.comp_hasDerivAt t hp

lemma hom_time (x0 : Fin D → ℝ) (t : ℝ) : ∀ (k : Nat) {g : Event D → ℝ} (_ : ContDiff ℝ ∞ g) (a : Fin D →₀ ℕ),
    HasDerivAt (fun t => coeff a (hom x0 t k g)) (coeff a (hom x0 t k (dt g))) t
  | 0, g, hg, a => by
    simp only [hom, coeff_C]
    split
    · exact time_deriv hg x0 t
    · exact hasDerivAt_const t 0
  | k + 1, g, hg, a => by
    simp only [hom, coeff_sum]
    refine HasDerivAt.fun_sum fun i _ => ?_
    simp only [coeff_mul]
    refine HasDerivAt.fun_sum fun b _ => ?_
    rw [← dt_dx hg]
    exact (hom_time x0 t k (contDiff_dx hg i) b.2).const_mul _

lemma tay_time (x0 : Fin D → ℝ) (t : ℝ) (k : Nat) {g : Event D → ℝ} (hg : ContDiff ℝ ∞ g) (a : Fin D →₀ ℕ) :
    HasDerivAt (fun t => coeff a (tay x0 t k g)) (coeff a (tay x0 t k (dt g))) t := by
  simp only [tay, coeff_sum, coeff_C_mul]
  exact HasDerivAt.fun_sum fun j _ => (hom_time x0 t j hg a).const_mul _

end Dgtd.Galerkin
