/-
Polynomials on the reference simplex: positivity of integrals, the trace inequality with a constant that depends on the degree only.
-/
import Verif.Lemmas.GalerkinMass
import Verif.Props.TimeInt
import Mathlib.Data.Finsupp.Order
import Mathlib.Data.Finsupp.Interval

namespace Dgtd.Galerkin
open MvPolynomial Spec

lemma integral_nonneg {D : Nat} (hD : D ≤ 3) (q : Poly D ℝ) (h : ∀ x, InSimplex x → 0 ≤ eval x q) : 0 ≤ integral D q := by
  by_cases hq : q = 0
  · simp [hq]
  · exact (integral_pos hD q hq h).le

lemma integral_mono {D : Nat} (hD : D ≤ 3) (q r : Poly D ℝ) (h : ∀ x, InSimplex x → eval x q ≤ eval x r) : integral D q ≤ integral D r := by
  have := integral_nonneg hD (r - q) fun x hx => by rw [map_sub]; linarith [h x hx]
  rw [map_sub] at this
  linarith

/-- A definite form bounds every form. -/
lemma form_dom {V : Type} [NormedAddCommGroup V] [NormedSpace ℝ V] [FiniteDimensional ℝ V] (A B : V →ₗ[ℝ] V →ₗ[ℝ] ℝ)
    (hpos : ∀ u, u ≠ 0 → 0 < A u u) : ∃ L, 0 ≤ L ∧ ∀ u, B u u ≤ L * A u u := by
  have : ProperSpace V := FiniteDimensional.proper ℝ V
  have hcont : Continuous fun u => A u u := by
    have h1 : Continuous fun u => A.toContinuousBilinearMap u := (A.toContinuousBilinearMap).continuous
    exact h1.clm_apply continuous_id
  obtain ⟨m, hm, hmin⟩ : ∃ m, 0 < m ∧ ∀ u, m * ‖u‖ ^ 2 ≤ A u u := by
    by_cases hne : (Metric.sphere (0 : V) 1).Nonempty
    · obtain ⟨w, hw, hwm⟩ := (isCompact_sphere (0 : V) 1).exists_isMinOn hne hcont.continuousOn
      have hw0 : w ≠ 0 := by
        rintro rfl
        simp at hw
      refine ⟨A w w, hpos w hw0, fun u => ?_⟩
      by_cases hu : u = 0
      · subst hu; simp
      · have hn : ‖u‖ ≠ 0 := norm_ne_zero_iff.2 hu
        have hmem : (‖u‖⁻¹ • u) ∈ Metric.sphere (0 : V) 1 := by
          simp [norm_smul, hn]
        have hle : A w w ≤ A (‖u‖⁻¹ • u) (‖u‖⁻¹ • u) := hwm hmem
        simp only [map_smul, LinearMap.smul_apply, smul_eq_mul] at hle
        have h2 : 0 < ‖u‖ ^ 2 := by positivity
        calc A w w * ‖u‖ ^ 2 ≤ (‖u‖⁻¹ * (‖u‖⁻¹ * A u u)) * ‖u‖ ^ 2 := mul_le_mul_of_nonneg_right hle h2.le
          _ = A u u := by field_simp
    · refine ⟨1, one_pos, fun u => ?_⟩
      by_cases hu : u = 0
      · subst hu; simp
      · exfalso
        apply hne
        exact ⟨‖u‖⁻¹ • u, by simp [norm_smul, norm_ne_zero_iff.2 hu]⟩
  refine ⟨‖B.toContinuousBilinearMap‖ / m, by positivity, fun u => ?_⟩
  have h1 : B u u ≤ ‖B.toContinuousBilinearMap‖ * ‖u‖ ^ 2 := by
    have k1 : ‖B.toContinuousBilinearMap u u‖ ≤ ‖B.toContinuousBilinearMap‖ * ‖u‖ * ‖u‖ := (B.toContinuousBilinearMap).le_opNorm₂ u u
    have k3 : B u u ≤ ‖B.toContinuousBilinearMap u u‖ := le_abs_self _
    nlinarith
  calc B u u ≤ ‖B.toContinuousBilinearMap‖ * ‖u‖ ^ 2 := h1
    _ = ‖B.toContinuousBilinearMap‖ / m * (m * ‖u‖ ^ 2) := by field_simp
    _ ≤ ‖B.toContinuousBilinearMap‖ / m * A u u := mul_le_mul_of_nonneg_left (hmin u) (by positivity)

/-- Exponents of degree at most `p` in every variable. -/
noncomputable def expos (D p : Nat) : Finset (Fin D →₀ ℕ) := Finset.Iic (Finsupp.equivFunOnFinite.symm fun _ => p)

lemma mem_expos {D p : Nat} (q : Poly D ℝ) (hq : q.totalDegree ≤ p) : q.support ⊆ expos D p := by
  intro a ha
  rw [expos, Finset.mem_Iic]
  intro i
  have h1 := le_totalDegree ha
  have h2 : a i ≤ a.sum fun _ e => e := by
    by_cases hi : i ∈ a.support
    · exact Finset.single_le_sum (f := fun i => a i) (fun _ _ => Nat.zero_le _) hi
    · rw [Finsupp.notMem_support_iff.1 hi]; exact Nat.zero_le _
  change a i ≤ p
  omega

/-- The polynomial with given coefficients. -/
noncomputable def ofCoef (D p : Nat) : (expos D p → ℝ) →ₗ[ℝ] Poly D ℝ where
  toFun c := ∑ a, monomial a.1 (c a)
  map_add' c c' := by simp [Finset.sum_add_distrib]
  map_smul' r c := by simp [Finset.smul_sum, MvPolynomial.smul_monomial]

lemma ofCoef_coef {D p : Nat} (q : Poly D ℝ) (hq : q.totalDegree ≤ p) : ofCoef D p (fun a => coeff a.1 q) = q := by
  have h1 : ofCoef D p (fun a => coeff a.1 q) = ∑ a ∈ expos D p, monomial a (coeff a q) := by
    change (∑ a : expos D p, monomial a.1 (coeff a.1 q)) = _
    exact Finset.sum_coe_sort (expos D p) fun a => monomial a (coeff a q)
  rw [h1, ← Finset.sum_subset (mem_expos q hq)]
  · exact q.support_sum_monomial_coeff
  · intro a _ ha
    rw [notMem_support_iff.1 ha, map_zero]

lemma ofCoef_inj {D p : Nat} (c : expos D p → ℝ) (h : ofCoef D p c = 0) : c = 0 := by
  funext b
  have := congrArg (coeff b.1) h
  change coeff b.1 (∑ a : expos D p, monomial a.1 (c a)) = _ at this
  rw [coeff_sum, Finset.sum_eq_single b] at this
  · simpa using this
  · intro a _ ha
    rw [coeff_monomial, if_neg fun h => ha (Subtype.ext h)]
  · simp

/-- The trace inequality. -/
lemma trace_face {n : Nat} (hn : n < 3) (p : Nat) (face : Option (Fin (n + 1))) (turn : Equiv.Perm (Fin (n + 1))) :
    ∃ L, 0 ≤ L ∧ ∀ v : Poly (n + 1) ℝ, v.totalDegree ≤ p → integral n (bind₁ (loc face turn) v ^ 2) ≤ L * integral (n + 1) (v ^ 2) := by
  obtain ⟨A, hA⟩ : ∃ A : (expos (n + 1) p → ℝ) →ₗ[ℝ] (expos (n + 1) p → ℝ) →ₗ[ℝ] ℝ,
      ∀ u v, A u v = integral (n + 1) (ofCoef _ _ u * ofCoef _ _ v) :=
    ⟨LinearMap.mk₂ ℝ (fun u v => integral (n + 1) (ofCoef _ _ u * ofCoef _ _ v)) (by intros; simp [add_mul]) (by intros; simp)
      (by intros; simp [mul_add]) (by intros; simp), fun u v => rfl⟩
  obtain ⟨B, hB⟩ : ∃ B : (expos (n + 1) p → ℝ) →ₗ[ℝ] (expos (n + 1) p → ℝ) →ₗ[ℝ] ℝ,
      ∀ u v, B u v = integral n (bind₁ (loc face turn) (ofCoef _ _ u) * bind₁ (loc face turn) (ofCoef _ _ v)) :=
    ⟨LinearMap.mk₂ ℝ (fun u v => integral n (bind₁ (loc face turn) (ofCoef _ _ u) * bind₁ (loc face turn) (ofCoef _ _ v)))
      (by intros; simp [add_mul]) (by intros; simp) (by intros; simp [mul_add]) (by intros; simp), fun u v => rfl⟩
  obtain ⟨L, hL, h⟩ := form_dom A B fun u hu => by
    rw [hA]
    refine integral_pos (by omega) _ (fun h0 => hu (ofCoef_inj u (mul_self_eq_zero.1 h0))) fun x _ => ?_
    rw [map_mul]; exact mul_self_nonneg _
  refine ⟨L, hL, fun v hv => ?_⟩
  have := h fun a => coeff a.1 v
  rw [hA, hB, ofCoef_coef v hv] at this
  simpa [sq] using this

/-- The trace inequality, one constant for all faces. -/
lemma trace_const {n : Nat} (hn : n < 3) (p : Nat) : ∃ L, 0 ≤ L ∧ ∀ (face : Option (Fin (n + 1))) (turn : Equiv.Perm (Fin (n + 1)))
    (v : Poly (n + 1) ℝ), v.totalDegree ≤ p → integral n (bind₁ (loc face turn) v ^ 2) ≤ L * integral (n + 1) (v ^ 2) := by
  choose L hL h using fun q : Option (Fin (n + 1)) × Equiv.Perm (Fin (n + 1)) => trace_face hn p q.1 q.2
  refine ⟨∑ q, L q, Finset.sum_nonneg fun q _ => hL q, fun face turn v hv => (h (face, turn) v hv).trans ?_⟩
  refine mul_le_mul_of_nonneg_right (Finset.single_le_sum (fun q _ => hL q) (Finset.mem_univ (face, turn))) ?_
  exact integral_nonneg (by omega) _ fun x _ => by rw [map_pow]; exact sq_nonneg _

end Dgtd.Galerkin
