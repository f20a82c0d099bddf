/-
Fits of rational functions: uniqueness.
-/
import Verif.Model.PoleSolve
import Verif.Props.PoleFit
import Mathlib.Algebra.Polynomial.Roots
import Mathlib.LinearAlgebra.Matrix.ToLinearEquiv
import Mathlib.LinearAlgebra.Matrix.Charpoly.Eigs

set_option linter.unusedSectionVars false

namespace Dgtd.PoleFit
open Spec Finset Polynomial

variable {m n : Nat}

lemma sval_inj {f : Fin m → ℝ} (hf : Function.Injective f) : Function.Injective fun k => sval (f k) := by
  intro a b h
  simp only [sval] at h
  have := mul_left_cancel₀ Complex.I_ne_zero h
  have := Complex.ofReal_injective this
  exact hf (mul_left_cancel₀ (by positivity) this)

lemma foldl_max (g : Fin m → ℝ) : ∀ (l : List (Fin m)) (a : ℝ), a ≤ l.foldl (fun a k => if a < g k then g k else a) a ∧
    ∀ k ∈ l, g k ≤ l.foldl (fun a k => if a < g k then g k else a) a := by
  intro l
  induction l with
  | nil => intro a; simp
  | cons x l ih =>
    intro a
    rw [List.foldl_cons]
    obtain ⟨h1, h2⟩ := ih (if a < g x then g x else a)
    have h3 : a ≤ (if a < g x then g x else a) ∧ g x ≤ (if a < g x then g x else a) := by
      split
      · exact ⟨by linarith, le_rfl⟩
      · exact ⟨le_rfl, by linarith⟩
    refine ⟨h3.1.trans h1, fun k hk => ?_⟩
    rcases List.mem_cons.1 hk with rfl | hk
    · exact h3.2.trans h1
    · exact h2 k hk

lemma scale_pos {f : Fin m → ℝ} (hf : Function.Injective f) (hm : 2 ≤ m) : 0 < scaleOf f := by
  obtain ⟨h1, h2⟩ := foldl_max (fun k => ‖sval (f k)‖) (List.finRange m) 0
  obtain ⟨k, hk⟩ : ∃ k, sval (f k) ≠ 0 := by
    by_contra h
    push Not at h
    have := sval_inj hf ((h ⟨0, by omega⟩).trans (h ⟨1, by omega⟩).symm)
    simp at this
  exact (norm_pos_iff.2 hk).trans_le (h2 k (List.mem_finRange k))

lemma weight_pos (Z : Fin m → ℂ) (k : Fin m) : 0 < weight Z k := by
  unfold weight
  split
  · positivity
  · exact one_pos

/-- A polynomial that vanishes at more points than its degree. -/
lemma zero_of_points {f : Fin m → ℝ} (hf : Function.Injective f) (q : ℂ[X]) (hd : q.natDegree < m) (h : ∀ k, q.eval (sval (f k)) = 0) : q = 0 :=
  eq_zero_of_natDegree_lt_card_of_eval_eq_zero q (sval_inj hf) h (by simpa using hd)

/-! ### numerators and denominators -/

/-- Denominator with the zeros `p`. -/
noncomputable def monicOf (p : Fin n → ℂ) : ℂ[X] := ∏ j, (X - C (p j))

/-- Numerator of the partial fractions. -/
noncomputable def numOf (p r : Fin n → ℂ) : ℂ[X] := ∑ j, C (r j) * ∏ i ∈ univ.erase j, (X - C (p i))

lemma monicOf_monic (p : Fin n → ℂ) : (monicOf p).Monic := monic_prod_of_monic _ _ fun j _ => monic_X_sub_C _

lemma monicOf_degree (p : Fin n → ℂ) : (monicOf p).natDegree = n := by
  rw [monicOf, natDegree_prod_of_monic _ _ fun j _ => monic_X_sub_C _]
  simp

lemma numOf_degree (p r : Fin n → ℂ) (hn : 1 ≤ n) : (numOf p r).natDegree < n := by
  unfold numOf
  refine lt_of_le_of_lt (natDegree_sum_le_of_forall_le (n := n - 1) _ _ fun j _ => ?_) (by omega)
  refine (natDegree_C_mul_le _ _).trans ?_
  rw [natDegree_prod_of_monic _ _ fun j _ => monic_X_sub_C _]
  simp

lemma monicOf_eval (p : Fin n → ℂ) (s : ℂ) : (monicOf p).eval s = ∏ j, (s - p j) := by
  simp [monicOf, eval_prod]

lemma numOf_eval (p r : Fin n → ℂ) {s : ℂ} (hs : ∀ j, s ≠ p j) : (numOf p r).eval s = (∑ j, r j / (s - p j)) * ∏ j, (s - p j) := by
  simp only [numOf, eval_finset_sum, eval_mul, eval_C, eval_prod, eval_sub, eval_X, Finset.sum_mul]
  refine sum_congr rfl fun j _ => ?_
  rw [← mul_prod_erase univ (fun j => s - p j) (mem_univ j)]
  have := sub_ne_zero.2 (hs j)
  field_simp

lemma numOf_pole (p r : Fin n → ℂ) (j : Fin n) : (numOf p r).eval (p j) = r j * ∏ i ∈ univ.erase j, (p j - p i) := by
  simp only [numOf, eval_finset_sum, eval_mul, eval_C, eval_prod, eval_sub, eval_X]
  rw [Finset.sum_eq_single j]
  · intro i _ hi
    rw [prod_eq_zero (i := j) (mem_erase.2 ⟨hi.symm, mem_univ j⟩) (by simp), mul_zero]
  · simp

lemma prod_erase_ne {p : Fin n → ℂ} (hp : Function.Injective p) (j : Fin n) : ∏ i ∈ univ.erase j, (p j - p i) ≠ 0 := by
  refine prod_ne_zero_iff.2 fun i hi => sub_ne_zero.2 fun h => ?_
  exact (mem_erase.1 hi).1 (hp h).symm

/-- Numerator and denominator of the fitted function as polynomials of the unscaled frequency. -/
noncomputable def numPoly (n : Nat) (x : Nat → ℂ) (S : ℂ) : ℂ[X] := ∑ j ∈ range (n + 1), C (x j / S ^ j) * X ^ j

noncomputable def denPoly (n : Nat) (x : Nat → ℂ) (S : ℂ) : ℂ[X] := 1 + ∑ j ∈ range n, C (x (n + 1 + j) / S ^ (j + 1)) * X ^ (j + 1)

lemma numPoly_eval (x : Nat → ℂ) (S s : ℂ) : (numPoly n x S).eval s = num n x (s / S) := by
  simp only [numPoly, num, eval_finset_sum, eval_mul, eval_C, eval_pow, eval_X, div_pow]
  exact sum_congr rfl fun j _ => by ring

lemma denPoly_eval (x : Nat → ℂ) (S s : ℂ) : (denPoly n x S).eval s = den n x (s / S) := by
  simp only [denPoly, den, eval_add, eval_one, eval_finset_sum, eval_mul, eval_C, eval_pow, eval_X, div_pow]
  exact congrArg _ (sum_congr rfl fun j _ => by ring)

lemma numPoly_degree (x : Nat → ℂ) (S : ℂ) : (numPoly n x S).natDegree ≤ n := by
  refine natDegree_sum_le_of_forall_le _ _ fun j hj => (natDegree_C_mul_X_pow_le _ _).trans ?_
  have := mem_range.1 hj
  omega

lemma denPoly_degree (x : Nat → ℂ) (S : ℂ) : (denPoly n x S).natDegree ≤ n := by
  refine natDegree_add_le_of_degree_le (by simp) (natDegree_sum_le_of_forall_le _ _ fun j hj => (natDegree_C_mul_X_pow_le _ _).trans ?_)
  have := mem_range.1 hj
  omega

lemma denPoly_zero (x : Nat → ℂ) (S : ℂ) : (denPoly n x S).coeff 0 = 1 := by
  rw [coeff_zero_eq_eval_zero, denPoly_eval]
  simp [den]

lemma denPoly_top (x : Nat → ℂ) (S : ℂ) (hn : 1 ≤ n) : (denPoly n x S).coeff n = x (2 * n) / S ^ n := by
  obtain ⟨k, rfl⟩ : ∃ k, n = k + 1 := ⟨n - 1, by omega⟩
  rw [denPoly, coeff_add, finset_sum_coeff]
  simp only [coeff_C_mul_X_pow]
  rw [sum_eq_single k]
  · rw [if_pos rfl, coeff_one, if_neg (by omega), zero_add]
    congr 2
    omega
  · intro j _ hj
    rw [if_neg (by omega)]
  · intro h
    simp at h

/-- Coefficients of given polynomials. -/
noncomputable def coefOf (n : Nat) (N D : ℂ[X]) (S : ℂ) (i : Nat) : ℂ :=
  if i ≤ n then N.coeff i * S ^ i else D.coeff (i - n) * S ^ (i - n)

lemma numPoly_of {N D : ℂ[X]} {S : ℂ} (hS : S ≠ 0) (hN : N.natDegree ≤ n) : numPoly n (coefOf n N D S) S = N := by
  rw [numPoly]
  conv_rhs => rw [as_sum_range' N (n + 1) (by omega)]
  refine sum_congr rfl fun j hj => ?_
  have := mem_range.1 hj
  rw [coefOf, if_pos (by omega), C_mul_X_pow_eq_monomial, mul_div_assoc, div_self (pow_ne_zero _ hS), mul_one]

lemma denPoly_of {N D : ℂ[X]} {S : ℂ} (hS : S ≠ 0) (hD : D.natDegree ≤ n) (h1 : D.coeff 0 = 1) : denPoly n (coefOf n N D S) S = D := by
  rw [denPoly]
  conv_rhs => rw [as_sum_range' D (n + 1) (by omega), sum_range_succ']
  rw [h1, add_comm]
  congr 1
  refine sum_congr rfl fun j hj => ?_
  have := mem_range.1 hj
  rw [coefOf, if_neg (by omega), show n + 1 + j - n = j + 1 by omega, C_mul_X_pow_eq_monomial, mul_div_assoc, div_self (pow_ne_zero _ hS), mul_one]

/-! ### least squares with an exact solution -/

lemma norm_sum_zero {g : Fin m → ℂ} (h : ∑ k, ‖g k‖ ^ 2 ≤ 0) (k : Fin m) : g k = 0 := by
  have h0 := (sum_eq_zero_iff_of_nonneg (fun k _ => by positivity)).1 (le_antisymm h (sum_nonneg fun k _ => by positivity)) k (mem_univ k)
  simpa using h0

end Dgtd.PoleFit
