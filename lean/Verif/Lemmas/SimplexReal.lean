/-
Integrals of polynomials over the reference simplices are the usual integrals.
-/
import Verif.Lemmas.Simplex
import Mathlib.Topology.Algebra.MvPolynomial
import Mathlib.Analysis.SpecialFunctions.Integrals.Basic
import Mathlib.MeasureTheory.Integral.DominatedConvergence
import Mathlib.Tactic.Positivity

namespace Dgtd.Galerkin
open MvPolynomial Spec intervalIntegral

lemma integral_zero_eq (q : Poly 0 ℝ) : integral 0 q = eval (fun i => i.elim0) q := by
  induction q using MvPolynomial.induction_on' with
  | monomial a c =>
    rw [integral_monomial, eval_monomial]
    simp [moment, Finsupp.prod_fintype]
  | add p q hp hq => rw [map_add, map_add, hp, hq]

/-- On the segment from 0 to 1. -/
theorem integral_one_eq (q : Poly 1 ℝ) : integral 1 q = ∫ x in (0 : ℝ)..1, eval ![x] q := by
  induction q using MvPolynomial.induction_on' with
  | monomial a c =>
    rw [integral_monomial]
    simp only [eval_monomial, Finsupp.prod_fintype, pow_zero, implies_true, Finset.univ_unique, Fin.default_eq_zero, Fin.isValue,
      Matrix.cons_val_fin_one, Finset.prod_singleton, integral_const_mul, integral_pow]
    simp only [moment, Finset.univ_unique, Fin.default_eq_zero, Finset.prod_singleton, Finset.sum_singleton, Nat.factorial_succ]
    have := fac_ne (K := ℝ) (a 0)
    push_cast
    field_simp
    simp
  | add p q hp hq =>
    have hc : ∀ r : Poly 1 ℝ, Continuous fun x : ℝ => eval ![x] r := fun r =>
      (MvPolynomial.continuous_eval r).comp (continuous_pi fun i => by fin_cases i; exact continuous_id)
    rw [map_add, hp, hq, ← integral_add ((hc p).intervalIntegrable _ _) ((hc q).intervalIntegrable _ _)]
    simp

/-- On the triangle. -/
theorem integral_two_eq (q : Poly 2 ℝ) : integral 2 q = ∫ x in (0 : ℝ)..1, ∫ y in (0 : ℝ)..(1 - x), eval ![x, y] q := by
  induction q using MvPolynomial.induction_on' with
  | monomial a c =>
    rw [integral_monomial]
    have hin : ∀ x : ℝ, (∫ y in (0 : ℝ)..(1 - x), eval ![x, y] (monomial a c)) =
        c / (a 1 + 1) * eval ![x] ((∏ i, (bary i : Poly 1 ℝ) ^ (![a 1 + 1, a 0] : Fin 2 → ℕ) i)) := by
      intro x
      simp only [eval_monomial, Finsupp.prod_fintype, pow_zero, implies_true, Fin.prod_univ_two, Matrix.cons_val_zero, Matrix.cons_val_one,
        ← mul_assoc, integral_const_mul, integral_pow]
      simp [bary, Fin.prod_univ_succ]
      ring
    simp only [hin, integral_const_mul]
    rw [← integral_one_eq, integral_bary]
    have hs : (∑ i : Fin (1 + 1), (![a 1 + 1, a 0] : Fin 2 → ℕ) i) = a 0 + a 1 + 1 := by
      simp [Fin.sum_univ_succ]; omega
    have hp : (∏ i : Fin (1 + 1), (((![a 1 + 1, a 0] : Fin 2 → ℕ) i).factorial : ℝ)) = ((a 1 + 1).factorial : ℝ) * (a 0).factorial := by
      simp [Fin.prod_univ_succ]
    simp only [moment, Fin.prod_univ_two, Fin.sum_univ_two]
    rw [hs, hp, Nat.factorial_succ (a 1)]
    have := fac_ne (K := ℝ) (a 0 + a 1 + 2)
    push_cast
    field_simp
  | add p q hp hq =>
    have hc : ∀ r : Poly 2 ℝ, Continuous (Function.uncurry fun x y : ℝ => eval ![x, y] r) := fun r =>
      (MvPolynomial.continuous_eval r).comp (continuous_pi fun i => by
        fin_cases i
        · exact continuous_fst
        · exact continuous_snd)
    have hi : ∀ (r : Poly 2 ℝ) (x : ℝ) (b : ℝ), IntervalIntegrable (fun y => eval ![x, y] r) MeasureTheory.volume 0 b := fun r x b =>
      ((hc r).comp (by fun_prop : Continuous fun y : ℝ => (x, y))).intervalIntegrable _ _
    have ho : ∀ r : Poly 2 ℝ, IntervalIntegrable (fun x => ∫ y in (0 : ℝ)..(1 - x), eval ![x, y] r) MeasureTheory.volume 0 1 := fun r =>
      (continuous_parametric_intervalIntegral_of_continuous (hc r) (by fun_prop)).intervalIntegrable _ _
    rw [map_add, hp, hq, ← integral_add (ho p) (ho q)]
    congr 1
    funext x
    rw [← integral_add (hi p x _) (hi q x _)]
    simp

/-- On the tetrahedron. -/
theorem integral_three_eq (q : Poly 3 ℝ) :
    integral 3 q = ∫ x in (0 : ℝ)..1, ∫ y in (0 : ℝ)..(1 - x), ∫ z in (0 : ℝ)..(1 - x - y), eval ![x, y, z] q := by
  induction q using MvPolynomial.induction_on' with
  | monomial a c =>
    rw [integral_monomial]
    have hin : ∀ x y : ℝ, (∫ z in (0 : ℝ)..(1 - x - y), eval ![x, y, z] (monomial a c)) =
        c / (a 2 + 1) * eval ![x, y] ((∏ i, (bary i : Poly 2 ℝ) ^ (![a 2 + 1, a 0, a 1] : Fin 3 → ℕ) i)) := by
      intro x y
      simp only [eval_monomial, Finsupp.prod_fintype, pow_zero, implies_true, Fin.prod_univ_three, Matrix.cons_val_zero, Matrix.cons_val_one,
        Matrix.cons_val, ← mul_assoc, integral_const_mul, integral_pow]
      simp [bary, Fin.prod_univ_succ]
      ring
    simp only [hin, integral_const_mul]
    rw [← integral_two_eq, integral_bary]
    have hs : (∑ i : Fin (2 + 1), (![a 2 + 1, a 0, a 1] : Fin 3 → ℕ) i) = a 0 + a 1 + a 2 + 1 := by
      simp [Fin.sum_univ_succ]; omega
    have hp : (∏ i : Fin (2 + 1), (((![a 2 + 1, a 0, a 1] : Fin 3 → ℕ) i).factorial : ℝ)) =
        ((a 2 + 1).factorial : ℝ) * ((a 0).factorial * (a 1).factorial) := by
      simp [Fin.prod_univ_succ]
    simp only [moment, Fin.prod_univ_three, Fin.sum_univ_three]
    rw [hs, hp, Nat.factorial_succ (a 2)]
    have := fac_ne (K := ℝ) (a 0 + a 1 + a 2 + 3)
    push_cast
    field_simp
  | add p q hp hq =>
    have hc : ∀ r : Poly 3 ℝ, Continuous (Function.uncurry fun (w : ℝ × ℝ) (z : ℝ) => eval ![w.1, w.2, z] r) := fun r =>
      (MvPolynomial.continuous_eval r).comp (continuous_pi fun i => by
        fin_cases i
        · exact continuous_fst.fst
        · exact continuous_fst.snd
        · exact continuous_snd)
    have hi : ∀ (r : Poly 3 ℝ) (x y : ℝ) (b : ℝ), IntervalIntegrable (fun z => eval ![x, y, z] r) MeasureTheory.volume 0 b := fun r x y b =>
      ((hc r).comp (by fun_prop : Continuous fun z : ℝ => ((x, y), z))).intervalIntegrable _ _
    have hm : ∀ r : Poly 3 ℝ, Continuous (Function.uncurry fun x y : ℝ => ∫ z in (0 : ℝ)..(1 - x - y), eval ![x, y, z] r) := fun r =>
      continuous_parametric_intervalIntegral_of_continuous (f := fun (w : ℝ × ℝ) (z : ℝ) => eval ![w.1, w.2, z] r) (hc r)
        (s := fun w => 1 - w.1 - w.2) (by fun_prop)
    have hj : ∀ (r : Poly 3 ℝ) (x : ℝ) (b : ℝ), IntervalIntegrable (fun y => ∫ z in (0 : ℝ)..(1 - x - y), eval ![x, y, z] r)
        MeasureTheory.volume 0 b := fun r x b =>
      ((hm r).comp (by fun_prop : Continuous fun y : ℝ => (x, y))).intervalIntegrable _ _
    have ho : ∀ r : Poly 3 ℝ, IntervalIntegrable (fun x => ∫ y in (0 : ℝ)..(1 - x), ∫ z in (0 : ℝ)..(1 - x - y), eval ![x, y, z] r)
        MeasureTheory.volume 0 1 := fun r =>
      (continuous_parametric_intervalIntegral_of_continuous (hm r) (by fun_prop)).intervalIntegrable _ _
    rw [map_add, hp, hq, ← integral_add (ho p) (ho q)]
    congr 1
    funext x
    rw [← integral_add (hj p x _) (hj q x _)]
    congr 1
    funext y
    rw [← integral_add (hi p x y _) (hi q x y _)]
    simp

/-- Squares have non-negative integrals. -/
lemma integral_sq_nonneg : ∀ {n : Nat} (_ : n < 3) (r : Poly n ℝ), 0 ≤ integral n (r * r)
  | 0, _, r => by rw [integral_zero_eq, map_mul]; exact mul_self_nonneg _
  | 1, _, r => by
    rw [integral_one_eq]
    exact integral_nonneg (by norm_num) fun x _ => by rw [map_mul]; exact mul_self_nonneg _
  | 2, _, r => by
    rw [integral_two_eq]
    exact integral_nonneg (by norm_num) fun x hx => integral_nonneg (by linarith [hx.2]) fun y _ => by
      rw [map_mul]; exact mul_self_nonneg _

end Dgtd.Galerkin
