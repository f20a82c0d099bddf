/-
C147: which impedances the pole fit recovers.
-/
import Verif.Lemmas.PoleSolve
import Mathlib.Analysis.InnerProductSpace.Projection.Minimal
import Mathlib.Analysis.InnerProductSpace.PiL2

set_option linter.unusedSectionVars false

namespace Dgtd.PoleFit
open Spec Finset Polynomial

variable {m n : Nat}

/-- Answers of the library give the fitted impedance exactly at the frequencies if some rational function of the order does. -/
lemma rows_exact {f : Fin m → ℝ} {Z : Fin m → ℂ} {A : Answers n} (h : Library f Z n A) (hS : (scaleOf f : ℂ) ≠ 0) (N D : ℂ[X]) (hN : N.natDegree ≤ n)
    (hD : D.natDegree ≤ n) (h1 : D.coeff 0 = 1) (hZ : ∀ k, N.eval (sval (f k)) = Z k * D.eval (sval (f k))) (k : Fin m) :
    (numPoly n A.x (scaleOf f)).eval (sval (f k)) = Z k * (denPoly n A.x (scaleOf f)).eval (sval (f k)) := by
  have hw : ∀ k, (weight Z k : ℂ) ≠ 0 := fun k => Complex.ofReal_ne_zero.2 (weight_pos Z k).ne'
  have h0 : ∀ k, ∑ j ∈ range (2 * n + 1), system f Z n k j * coefOf n N D (scaleOf f) j - rhs (weight Z k : ℂ) (Z k) = 0 := by
    intro k
    refine sub_eq_zero.2 ((C92_row n _ _ _ _ (hw k)).2 ?_)
    rw [← numPoly_eval, ← denPoly_eval, numPoly_of hS hN, denPoly_of hS hD h1]
    exact hZ k
  have h2 := h.coefficients (coefOf n N D (scaleOf f))
  simp only [h0, norm_zero] at h2
  have h3 := norm_sum_zero (h2.trans (by simp)) k
  rw [numPoly_eval, denPoly_eval]
  exact (C92_row n _ _ _ _ (hw k)).1 (sub_eq_zero.1 h3)

lemma isEigenvalue_iff (c : Nat → Nat → ℂ) (lam : ℂ) :
    IsEigenvalue n c lam ↔ (Matrix.of fun i j : Fin n => c i j).charpoly.eval lam = 0 := by
  rw [Matrix.eval_charpoly, ← Matrix.exists_mulVec_eq_zero_iff]
  have key : ∀ (v : Nat → ℂ) (i : Fin n), ((Matrix.scalar (Fin n) lam - Matrix.of fun i j : Fin n => c i j).mulVec fun j => v j) i =
      lam * v i - ∑ j ∈ range n, c i j * v j := by
    intro v i
    rw [Matrix.sub_mulVec, Pi.sub_apply, ← Fin.sum_univ_eq_sum_range (fun j => c i j * v j)]
    simp [Matrix.mulVec, dotProduct, Matrix.diagonal_apply]
  constructor
  · rintro ⟨v, ⟨i, hi, hv⟩, h⟩
    refine ⟨fun j => v j, fun h0 => hv (congrFun h0 ⟨i, hi⟩), funext fun i => ?_⟩
    rw [key, h i i.2, sub_self]
    rfl
  · rintro ⟨v, hv, h⟩
    obtain ⟨i, hi⟩ := Function.ne_iff.1 hv
    have e : (fun j : Fin n => (fun k : Nat => if hk : k < n then v ⟨k, hk⟩ else 0) j) = v := by funext j; simp
    refine ⟨fun k => if hk : k < n then v ⟨k, hk⟩ else 0, ⟨i, i.2, by simpa using hi⟩, fun j hj => ?_⟩
    have := key (fun k : Nat => if hk : k < n then v ⟨k, hk⟩ else 0) ⟨j, hj⟩
    rw [e, h] at this
    exact (sub_eq_zero.1 this.symm).symm

/-- The impedance `c + Σ r / (s - p)` with different poles, none of them zero, none of the residues zero. -/
structure Rational (f : Fin m → ℝ) (Z : Fin m → ℂ) (c : ℂ) (p r : Fin n → ℂ) : Prop where
  distinct : Function.Injective p
  zero : ∀ j, p j ≠ 0
  residue : ∀ j, r j ≠ 0
  off : ∀ k j, sval (f k) ≠ p j
  value : ∀ k, Z k = c + ∑ j, r j / (sval (f k) - p j)

variable {f : Fin m → ℝ} {Z : Fin m → ℂ} {A : Answers n} {c : ℂ} {p r : Fin n → ℂ}

lemma poles_perm (h : Library f Z n A) (hn : 1 ≤ n) (hf : Function.Injective f) (hm : 2 * n + 1 ≤ m) (hr : Rational f Z c p r) :
    ∃ σ : Equiv.Perm (Fin n), ∀ j, A.poles j = p (σ j) := by
  have hS0 : (scaleOf f : ℂ) ≠ 0 := Complex.ofReal_ne_zero.2 (scale_pos hf (by omega)).ne'
  set S : ℂ := (scaleOf f : ℂ) with hS
  have hP0 : (monicOf p).eval 0 ≠ 0 := by
    rw [monicOf_eval]
    exact prod_ne_zero_iff.2 fun j _ => by simpa using hr.zero j
  set a := ((monicOf p).eval 0)⁻¹ with ha
  have ha0 : a ≠ 0 := inv_ne_zero hP0
  obtain ⟨D, hD⟩ : ∃ D, D = C a * monicOf p := ⟨_, rfl⟩
  obtain ⟨N, hN⟩ : ∃ N, N = C a * (C c * monicOf p + numOf p r) := ⟨_, rfl⟩
  have dD : D.natDegree ≤ n := hD ▸ (natDegree_C_mul_le _ _).trans (monicOf_degree p).le
  have dN : N.natDegree ≤ n := hN ▸ (natDegree_C_mul_le _ _).trans
    (natDegree_add_le_of_degree_le ((natDegree_C_mul_le _ _).trans (monicOf_degree p).le) (numOf_degree p r hn).le)
  have d1 : D.coeff 0 = 1 := by
    rw [coeff_zero_eq_eval_zero, hD, eval_mul, eval_C, ha, inv_mul_cancel₀ hP0]
  have hND : ∀ k, N.eval (sval (f k)) = Z k * D.eval (sval (f k)) := by
    intro k
    simp only [hN, hD, eval_mul, eval_C, eval_add, numOf_eval p r (hr.off k), monicOf_eval, hr.value k]
    ring
  have hrow := rows_exact h hS0 N D dN dD d1 hND
  have hzero : numPoly n A.x S * D - N * denPoly n A.x S = 0 := by
    refine zero_of_points hf _ ?_ fun k => ?_
    · refine lt_of_le_of_lt (natDegree_sub_le _ _) ?_
      have h1 := natDegree_mul_le (p := numPoly n A.x S) (q := D)
      have h2 := natDegree_mul_le (p := N) (q := denPoly n A.x S)
      have h3 := numPoly_degree (n := n) A.x S
      have h4 := denPoly_degree (n := n) A.x S
      rw [max_lt_iff]
      constructor <;> omega
    · rw [eval_sub, eval_mul, eval_mul, hrow k, hND k]
      ring
  have hroot : ∀ j, (denPoly n A.x S).eval (p j) = 0 := by
    intro j
    have h1 := congrArg (eval (p j)) hzero
    have h2 : (monicOf p).eval (p j) = 0 := by
      rw [monicOf_eval]
      exact prod_eq_zero (mem_univ j) (sub_self _)
    rw [eval_sub, eval_mul, eval_mul, hD, hN, eval_mul, eval_mul, eval_add, eval_mul, h2, numOf_pole, eval_zero] at h1
    simp only [eval_C, mul_zero, zero_add, zero_sub, neg_eq_zero] at h1
    have h3 := mul_ne_zero ha0 (mul_ne_zero (hr.residue j) (prod_erase_ne hr.distinct j))
    exact (mul_eq_zero.1 h1).resolve_left h3
  have hQ0 : denPoly n A.x S ≠ 0 := fun h0 => by
    have := denPoly_zero (n := n) A.x S
    rw [h0] at this
    simp at this
  have htop : A.x (2 * n) ≠ 0 := by
    intro h0
    have hc : (denPoly n A.x S).coeff n = 0 := by rw [denPoly_top _ _ hn, h0, zero_div]
    refine hQ0 (eq_zero_of_natDegree_lt_card_of_eval_eq_zero _ hr.distinct hroot ?_)
    rw [Fintype.card_fin]
    refine lt_of_le_of_ne (denPoly_degree _ _) fun e => hQ0 ?_
    rw [← leadingCoeff_eq_zero, leadingCoeff, e, hc]
  have hex : ∀ j, ∃ i, A.poles i = p j := by
    intro j
    have h1 : IsEigenvalue n (companion n (coeffs n A.x S)) (p j) := (C92_poles n hn _ _ _ hS0 htop).2 (by rw [← denPoly_eval]; exact hroot j)
    rw [isEigenvalue_iff, h.eigenvalues, eval_prod] at h1
    obtain ⟨i, _, hi⟩ := prod_eq_zero_iff.1 h1
    refine ⟨i, ?_⟩
    simp only [eval_sub, eval_X, eval_C] at hi
    exact (sub_eq_zero.1 hi).symm
  choose g hg using hex
  have gi : Function.Injective g := fun a b e => hr.distinct (by rw [← hg a, ← hg b, e])
  refine ⟨(Equiv.ofBijective g (Finite.injective_iff_bijective.1 gi)).symm, fun j => ?_⟩
  rw [← hg]
  congr 1
  exact ((Equiv.ofBijective g _).apply_symm_apply j).symm

lemma stable_iff (h : ∃ σ : Equiv.Perm (Fin n), ∀ j, A.poles j = p (σ j)) :
    (result f Z A).stable = true ↔ ∀ j, (p j).re ≤ 1 / 1000000 := by
  obtain ⟨σ, hσ⟩ := h
  have := (C45_quality [] ((List.finRange n).map fun j => (A.poles j).re)).2
  rw [List.map_map] at this
  refine this.trans ?_
  simp only [List.mem_map, List.mem_finRange, true_and, forall_exists_index, forall_apply_eq_imp_iff, hσ]
  exact ⟨fun h j => by simpa using h (σ.symm j), fun h j => h _⟩

/-- Partial fractions with the poles of `p` that agree with a constant at more points than there are poles. -/
lemma fractions_unique (hn : 1 ≤ n) (hf : Function.Injective f) (hm : n + 1 ≤ m) (hp : Function.Injective p) (off : ∀ k j, sval (f k) ≠ p j)
    (y : Fin n → ℂ) (d : ℂ) (hy : ∀ k, ∑ j, y j / (sval (f k) - p j) = d) : d = 0 ∧ y = 0 := by
  have h0 : numOf p y - C d * monicOf p = 0 := by
    refine zero_of_points hf _ ?_ fun k => ?_
    · refine lt_of_le_of_lt (natDegree_sub_le _ _) ?_
      have h1 := numOf_degree p y hn
      have h2 := (natDegree_C_mul_le d (monicOf p)).trans (monicOf_degree p).le
      rw [max_lt_iff]
      constructor <;> omega
    · rw [eval_sub, eval_mul, eval_C, numOf_eval p y (off k), monicOf_eval, hy k, sub_self]
  constructor
  · have h1 := congrArg (fun q => q.coeff n) h0
    simp only [coeff_sub, coeff_C_mul, coeff_zero] at h1
    have h2 : (monicOf p).coeff n = 1 := by
      have := monicOf_monic p
      rwa [Monic, leadingCoeff, monicOf_degree] at this
    rw [coeff_eq_zero_of_natDegree_lt (numOf_degree p y hn), h2, mul_one, zero_sub, neg_eq_zero] at h1
    exact h1
  · funext j
    have h1 := congrArg (eval (p j)) h0
    have h2 : (monicOf p).eval (p j) = 0 := by
      rw [monicOf_eval]
      exact prod_eq_zero (mem_univ j) (sub_self _)
    rw [eval_sub, eval_mul, h2, mul_zero, sub_zero, numOf_pole, eval_zero] at h1
    exact (mul_eq_zero.1 h1).resolve_right (prod_erase_ne hp j)

/-- From more than twice as many different frequencies as poles the fit of the right order finds the poles of an impedance, whatever its value at
infinity. -/
theorem C147_poles (h : Library f Z n A) (hn : 1 ≤ n) (hf : Function.Injective f) (hm : 2 * n + 1 ≤ m) (hr : Rational f Z c p r) :
    (∃ σ : Equiv.Perm (Fin n), ∀ j, A.poles j = p (σ j)) ∧ ((result f Z A).stable = true ↔ ∀ j, (p j).re ≤ 1 / 1000000) :=
  ⟨poles_perm h hn hf hm hr, stable_iff (poles_perm h hn hf hm hr)⟩

/-- An impedance that vanishes at infinity is recovered: its poles, each with its residue, with no error. -/
theorem C147_recovered_partial (h : Library f Z n A) (hn : 1 ≤ n) (hf : Function.Injective f) (hm : 2 * n + 1 ≤ m) (hr : Rational f Z 0 p r) :
    (∃ σ : Equiv.Perm (Fin n), ∀ j, A.poles j = p (σ j) ∧ A.residues j = r (σ j)) ∧ (∀ k, fitted A (f k) = Z k) ∧ (result f Z A).err = some 0 := by
  obtain ⟨σ, hσ⟩ := poles_perm h hn hf hm hr
  have e : ∀ k, ∑ j, partial1 f A.poles k j * r (σ j) - Z k = 0 := by
    intro k
    rw [hr.value k, zero_add, sub_eq_zero, ← Equiv.sum_comp σ fun j => r j / (sval (f k) - p j)]
    refine sum_congr rfl fun j _ => ?_
    rw [partial1, hσ]
    ring
  have h2 := h.residues fun j => r (σ j)
  simp only [e, norm_zero] at h2
  have h3 : ∀ k, ∑ j, partial1 f A.poles k j * A.residues j - Z k = 0 := norm_sum_zero (h2.trans (by simp))
  have h4 := fractions_unique hn hf (by omega) (hr.distinct.comp σ.injective) (fun k j => hr.off k (σ j)) (fun j => A.residues j - r (σ j)) 0 fun k => by
    have := (h3 k).trans (e k).symm
    have := sub_left_injective this
    simp only [partial1, hσ] at this
    simp only [sub_div, Finset.sum_sub_distrib, Function.comp]
    rw [sub_eq_zero]
    refine Eq.trans (sum_congr rfl fun j _ => by ring) (this.trans (sum_congr rfl fun j _ => by ring))
  have h5 : ∀ k, fitted A (f k) = Z k := by
    intro k
    rw [fitted, ← sub_eq_zero, ← h3 k]
    congr 1
    exact sum_congr rfl fun j _ => by rw [partial1]; ring
  refine ⟨⟨σ, fun j => ⟨hσ j, sub_eq_zero.1 (congrFun h4.2 j)⟩⟩, h5, ?_⟩
  obtain ⟨e1, h6, h7, _⟩ := (C45_quality ((List.finRange m).map fun k => relError A (f k) (Z k)) []).1
  rw [List.map_map] at h6
  refine h6.trans (congrArg some ?_)
  rcases h7 with h7 | h7
  · exact h7
  · obtain ⟨k, _, rfl⟩ := List.mem_map.1 h7
    simp [relError, h5 k]

/-- An impedance with a value other than zero at infinity, such as that of a sheet with resistance, is never recovered: the error is not zero,
although the poles are right. -/
theorem C147_resistance_fails (h : Library f Z n A) (hn : 1 ≤ n) (hf : Function.Injective f) (hm : 2 * n + 1 ≤ m) (hr : Rational f Z c p r)
    (hc : c ≠ 0) : ∃ e, 0 < e ∧ (result f Z A).err = some e := by
  obtain ⟨σ, hσ⟩ := poles_perm h hn hf hm hr
  obtain ⟨e, h6, _, h8, h9⟩ := (C45_quality ((List.finRange m).map fun k => relError A (f k) (Z k)) []).1
  rw [List.map_map] at h6
  refine ⟨e, lt_of_le_of_ne h8 ?_, h6⟩
  rintro rfl
  have h5 : ∀ k, fitted A (f k) = Z k := by
    intro k
    have h1 := h9 _ (List.mem_map.2 ⟨k, List.mem_finRange k, rfl⟩)
    unfold relError at h1
    have h2 : (0 : ℝ) < ‖Z k‖ + 1e-20 := by positivity
    have h3 := (div_le_iff₀ h2).1 h1
    rw [zero_mul] at h3
    exact sub_eq_zero.1 (norm_le_zero_iff.1 h3)
  refine hc (fractions_unique hn hf (by omega) (hr.distinct.comp σ.injective) (fun k j => hr.off k (σ j)) (fun j => A.residues j - r (σ j)) c
    fun k => ?_).1
  have h1 := h5 k
  rw [hr.value k, fitted, ← Equiv.sum_comp σ fun j => r j / (sval (f k) - p j)] at h1
  simp only [hσ] at h1
  simp only [sub_div, Finset.sum_sub_distrib, Function.comp]
  rw [h1]
  ring

/-- The search returns a stable fit within the tolerance if the impedance has at most as many poles as it may try, all of them stable, and vanishes at
infinity. -/
theorem C147_search_partial (h : Library f Z n A) (hn : 1 ≤ n) (hf : Function.Injective f) (hm : 2 * n + 1 ≤ m) (hr : Rational f Z 0 p r)
    (hs : ∀ j, (p j).re ≤ 1 / 1000000) (fit : Nat → Fit ℝ) (hfit : fit n = result f Z A) (maxPoles : Nat) (hmax : n ≤ maxPoles) (tol : ℝ)
    (ht : 0 < tol) (hreal : ∀ M, 1 ≤ M → M < n → ∃ x, (fit M).err = some x) :
    ∃ M e, 1 ≤ M ∧ M ≤ n ∧ findOptimal fit maxPoles tol = fit M ∧ (fit M).stable = true ∧ (fit M).err = some e ∧ e < tol := by
  have hn' : ∃ M, 1 ≤ M ∧ M ≤ n ∧ (fit M).stable = true ∧ ∃ e, (fit M).err = some e ∧ e < tol := by
    refine ⟨n, hn, le_rfl, ?_, 0, ?_, ht⟩
    · rw [hfit]
      exact (C147_poles h hn hf hm hr).2.2 hs
    · rw [hfit]
      exact (C147_recovered_partial h hn hf hm hr).2.2
  classical
  obtain ⟨h1, h2, h3, e, h4, h5⟩ := Nat.find_spec hn'
  have hmin := fun M hM => Nat.find_min hn' (m := M) hM
  set M := Nat.find hn'
  refine ⟨M, e, h1, h2, (C45_stops fit maxPoles tol M h1 (h2.trans hmax) e h3 h4 h5 ?_).1, h3, h4, h5⟩
  intro M' hM1 hM2 hst
  obtain ⟨x, hx⟩ := hreal M' hM1 (by omega)
  refine ⟨x, hx, ?_⟩
  by_contra hlt
  exact hmin M' hM2 ⟨hM1, by omega, hst, x, hx, not_le.1 hlt⟩

/-- Solutions in the sense of least squares exist. -/
lemma lsq_exists (R : Fin m → Fin n → ℂ) (b : Fin m → ℂ) :
    ∃ x : Fin n → ℂ, ∀ y : Fin n → ℂ, ∑ k, ‖∑ j, R k j * x j - b k‖ ^ 2 ≤ ∑ k, ‖∑ j, R k j * y j - b k‖ ^ 2 := by
  let L : (Fin n → ℂ) →ₗ[ℂ] EuclideanSpace ℂ (Fin m) := (WithLp.linearEquiv 2 ℂ (Fin m → ℂ)).symm.toLinearMap ∘ₗ (Matrix.of R).mulVecLin
  have hL : ∀ y k, L y k = ∑ j, R k j * y j := fun y k => rfl
  have e : ∀ y, ‖WithLp.toLp 2 b - L y‖ ^ 2 = ∑ k, ‖∑ j, R k j * y j - b k‖ ^ 2 := by
    intro y
    rw [EuclideanSpace.norm_sq_eq]
    refine sum_congr rfl fun k _ => ?_
    rw [← norm_neg]
    congr 2
    change -(b k - L y k) = _
    rw [hL]
    ring
  have hc : IsComplete ((LinearMap.range L : Submodule ℂ (EuclideanSpace ℂ (Fin m))) : Set (EuclideanSpace ℂ (Fin m))) :=
    Submodule.complete_of_finiteDimensional _
  obtain ⟨v, ⟨x, rfl⟩, hv⟩ := Submodule.exists_norm_eq_iInf_of_complete_subspace (LinearMap.range L) hc (WithLp.toLp 2 b)
  refine ⟨x, fun y => ?_⟩
  rw [← e, ← e]
  refine pow_le_pow_left₀ (norm_nonneg _) ?_ 2
  rw [hv]
  exact ciInf_le ⟨0, by rintro _ ⟨w, rfl⟩; exact norm_nonneg _⟩ (⟨L y, y, rfl⟩ : (LinearMap.range L : Submodule ℂ _))

/-- Such answers of the library exist. -/
lemma answers_exist (hn : 1 ≤ n) (hf : Function.Injective f) (hm : 2 ≤ m) (hr : Rational f Z c p r) : ∃ A : Answers n, Library f Z n A := by
  have hS0 : (scaleOf f : ℂ) ≠ 0 := Complex.ofReal_ne_zero.2 (scale_pos hf hm).ne'
  set S : ℂ := (scaleOf f : ℂ) with hS
  have hP0 : (monicOf p).eval 0 ≠ 0 := by
    rw [monicOf_eval]
    exact prod_ne_zero_iff.2 fun j _ => by simpa using hr.zero j
  set a := ((monicOf p).eval 0)⁻¹ with ha
  have ha0 : a ≠ 0 := inv_ne_zero hP0
  obtain ⟨D, hD⟩ : ∃ D, D = C a * monicOf p := ⟨_, rfl⟩
  obtain ⟨N, hN⟩ : ∃ N, N = C a * (C c * monicOf p + numOf p r) := ⟨_, rfl⟩
  have dD : D.natDegree ≤ n := hD ▸ (natDegree_C_mul_le _ _).trans (monicOf_degree p).le
  have dN : N.natDegree ≤ n := hN ▸ (natDegree_C_mul_le _ _).trans
    (natDegree_add_le_of_degree_le ((natDegree_C_mul_le _ _).trans (monicOf_degree p).le) (numOf_degree p r hn).le)
  have d1 : D.coeff 0 = 1 := by
    rw [coeff_zero_eq_eval_zero, hD, eval_mul, eval_C, ha, inv_mul_cancel₀ hP0]
  have hND : ∀ k, N.eval (sval (f k)) = Z k * D.eval (sval (f k)) := by
    intro k
    simp only [hN, hD, eval_mul, eval_C, eval_add, numOf_eval p r (hr.off k), monicOf_eval, hr.value k]
    ring
  have hw : ∀ k, (weight Z k : ℂ) ≠ 0 := fun k => Complex.ofReal_ne_zero.2 (weight_pos Z k).ne'
  have h0 : ∀ k, ∑ j ∈ range (2 * n + 1), system f Z n k j * coefOf n N D S j - rhs (weight Z k : ℂ) (Z k) = 0 := by
    intro k
    refine sub_eq_zero.2 ((C92_row n _ _ _ _ (hw k)).2 ?_)
    rw [← numPoly_eval, ← denPoly_eval, numPoly_of hS0 dN, denPoly_of hS0 dD d1]
    exact hND k
  obtain ⟨y0, hy0⟩ := lsq_exists (partial1 f p) Z
  refine ⟨⟨coefOf n N D S, p, y0⟩, fun y => ?_, ?_, hy0⟩
  · simp only [h0, norm_zero]
    refine le_trans (by simp) (sum_nonneg fun k _ => by positivity)
  · change _ = monicOf p
    have htop : coefOf n N D S (2 * n) ≠ 0 := by
      rw [coefOf, if_neg (by omega), show 2 * n - n = n by omega]
      refine mul_ne_zero ?_ (pow_ne_zero _ hS0)
      have := monicOf_monic p
      rw [Monic, leadingCoeff, monicOf_degree] at this
      rw [hD, coeff_C_mul, this, mul_one]
      exact ha0
    set M := Matrix.of fun i j : Fin n => companion n (coeffs n (coefOf n N D S) S) i j
    have hmon : M.charpoly.Monic := Matrix.charpoly_monic M
    have hdeg : M.charpoly.natDegree = n := by rw [Matrix.charpoly_natDegree_eq_dim, Fintype.card_fin]
    refine sub_eq_zero.1 (eq_zero_of_natDegree_lt_card_of_eval_eq_zero _ hr.distinct (fun j => ?_) ?_)
    · have h1 : M.charpoly.eval (p j) = 0 := by
        rw [← isEigenvalue_iff, C92_poles n hn _ _ _ hS0 htop, ← denPoly_eval, denPoly_of hS0 dD d1, hD, eval_mul, monicOf_eval,
          prod_eq_zero (mem_univ j) (sub_self _), mul_zero]
      rw [eval_sub, h1, monicOf_eval, prod_eq_zero (mem_univ j) (sub_self _), sub_self]
    · rw [Fintype.card_fin]
      have h1 : (M.charpoly - monicOf p).natDegree ≤ n := (natDegree_sub_le _ _).trans (by rw [hdeg, monicOf_degree, max_self])
      refine lt_of_le_of_ne h1 fun e => ?_
      have h2 : (M.charpoly - monicOf p).coeff n = 0 := by
        have a1 := hmon
        have a2 := monicOf_monic p
        rw [Monic, leadingCoeff, hdeg] at a1
        rw [Monic, leadingCoeff, monicOf_degree] at a2
        rw [coeff_sub, a1, a2, sub_self]
      have h3 : M.charpoly - monicOf p = 0 := by rw [← leadingCoeff_eq_zero, leadingCoeff, e, h2]
      rw [h3] at e
      simp at e
      omega

/-- Five frequencies, the poles -1 and -2. -/
example : ∃ (Z : Fin 5 → ℂ) (A : Answers 2), Rational (fun k => (k : ℝ)) Z 0 ![-1, -2] ![3, 1] ∧ Library (fun k : Fin 5 => (k : ℝ)) Z 2 A ∧
    (result (fun k : Fin 5 => (k : ℝ)) Z A).err = some 0 := by
  have hf : Function.Injective fun k : Fin 5 => (k : ℝ) := fun a b h => by simpa [Fin.ext_iff] using h
  have hr : Rational (fun k : Fin 5 => (k : ℝ)) (fun k => 0 + ∑ j, (![3, 1] : Fin 2 → ℂ) j / (sval (k : ℝ) - (![-1, -2] : Fin 2 → ℂ) j)) 0 ![-1, -2] ![3, 1] := by
    refine ⟨?_, ?_, ?_, ?_, fun _ => rfl⟩
    · intro a b h
      fin_cases a <;> fin_cases b <;> first | rfl | (norm_num at h)
    · intro j; fin_cases j <;> norm_num
    · intro j; fin_cases j <;> norm_num
    · intro k j h
      have := congrArg Complex.re h
      fin_cases j <;> simp [sval] at this
  obtain ⟨A, hA⟩ := answers_exist (by omega) hf (by omega) hr
  exact ⟨_, A, hr, hA, (C147_recovered_partial hA (by omega) hf (by omega) hr).2.2⟩

/-- With a resistance of two in series there is an error. -/
example : ∃ (Z : Fin 5 → ℂ) (A : Answers 2), Rational (fun k => (k : ℝ)) Z 2 ![-1, -2] ![3, 1] ∧ Library (fun k : Fin 5 => (k : ℝ)) Z 2 A ∧
    ∃ e, 0 < e ∧ (result (fun k : Fin 5 => (k : ℝ)) Z A).err = some e := by
  have hf : Function.Injective fun k : Fin 5 => (k : ℝ) := fun a b h => by simpa [Fin.ext_iff] using h
  have hr : Rational (fun k : Fin 5 => (k : ℝ)) (fun k => 2 + ∑ j, (![3, 1] : Fin 2 → ℂ) j / (sval (k : ℝ) - (![-1, -2] : Fin 2 → ℂ) j)) 2 ![-1, -2] ![3, 1] := by
    refine ⟨?_, ?_, ?_, ?_, fun _ => rfl⟩
    · intro a b h
      fin_cases a <;> fin_cases b <;> first | rfl | (norm_num at h)
    · intro j; fin_cases j <;> norm_num
    · intro j; fin_cases j <;> norm_num
    · intro k j h
      have := congrArg Complex.re h
      fin_cases j <;> simp [sval] at this
  obtain ⟨A, hA⟩ := answers_exist (by omega) hf (by omega) hr
  exact ⟨_, A, hr, hA, C147_resistance_fails hA (by omega) hf (by omega) hr two_ne_zero⟩

end Dgtd.PoleFit
