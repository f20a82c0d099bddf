/-
Integrals of polynomials over the unit cube: monomials, symmetry, Gauss' theorem, positivity.
-/
import Verif.Spec.Straight
import Verif.Lemmas.SimplexReal
import Mathlib.Algebra.MvPolynomial.Funext
import Mathlib.MeasureTheory.Integral.Pi
import Mathlib.MeasureTheory.Integral.IntervalIntegral.Basic
import Mathlib.MeasureTheory.Measure.Haar.OfBasis
import Mathlib.MeasureTheory.Measure.OpenPos

namespace Dgtd.Straight
open MvPolynomial MeasureTheory Spec
open Dgtd.Galerkin (Poly)

lemma integrable {D : Nat} (q : Poly D ℝ) : IntegrableOn (fun x => eval x q) (Set.Icc (0 : Fin D → ℝ) 1) :=
  (MvPolynomial.continuous_eval q).continuousOn.integrableOn_compact isCompact_Icc

/-- Integral over the unit cube, linear in the polynomial. -/
noncomputable def cube (D : Nat) : Poly D ℝ →ₗ[ℝ] ℝ where
  toFun q := ∫ x in Set.Icc (0 : Fin D → ℝ) 1, eval x q
  map_add' p q := by
    simp only [map_add]
    exact integral_add (integrable p) (integrable q)
  map_smul' c q := by
    simp only [smul_eval, RingHom.id_apply, smul_eq_mul]
    exact integral_const_mul c _

/-- Products of functions of one coordinate each. -/
lemma cube_prod {D : Nat} (f : Fin D → ℝ → ℝ) : ∫ x in Set.Icc (0 : Fin D → ℝ) 1, ∏ i, f i (x i) = ∏ i, ∫ t in (0 : ℝ)..1, f i t := by
  have h : (volume : Measure (Fin D → ℝ)).restrict (Set.Icc 0 1) = Measure.pi fun _ => (volume : Measure ℝ).restrict (Set.Icc 0 1) := by
    rw [← Set.pi_univ_Icc, volume_pi, Measure.restrict_pi_pi]
    rfl
  rw [h, integral_fintype_prod_eq_prod]
  refine Finset.prod_congr rfl fun i _ => ?_
  rw [intervalIntegral.integral_of_le zero_le_one, integral_Icc_eq_integral_Ioc]

lemma pow_int (flip : Bool) (a : ℕ) : ∫ t in (0 : ℝ)..1, (if flip then 1 - t else t) ^ a = 1 / (a + 1) := by
  cases flip
  · simp
  · have := intervalIntegral.integral_comp_sub_left (fun x : ℝ => x ^ a) (a := 0) (b := 1) 1
    simp only [if_true]
    rw [this]
    simp

/-- What a monomial becomes on a face of the cube. -/
lemma cube_monomial {n : Nat} (k : Fin (n + 1)) (b : Bool) (turn : Equiv.Perm (Fin n)) (flip : Fin n → Bool) (a : Fin (n + 1) →₀ ℕ) :
    cube n (bind₁ (loc (.box k b turn flip)) (monomial a (1 : ℝ))) = (if b then 1 else 0) ^ a k * ∏ i, (1 / ((a (k.succAbove i) : ℝ) + 1)) := by
  have hm : ∀ x : Fin n → ℝ, eval x (bind₁ (loc (.box k b turn flip)) (monomial a (1 : ℝ))) = (if b then 1 else 0) ^ a k *
      ∏ j, (fun (j : Fin n) (t : ℝ) => (if flip (turn.symm j) then 1 - t else t) ^ a (k.succAbove (turn.symm j))) j (x j) := by
    intro x
    rw [monomial_eq, map_mul, bind₁_C_right, C_1, one_mul, Finsupp.prod_fintype _ _ (by simp), map_prod, map_prod, Fin.prod_univ_succAbove _ k]
    congr 1
    · cases b <;> simp [loc]
    · refine Eq.trans (Finset.prod_congr rfl fun i _ => ?_) (Equiv.prod_comp turn _)
      simp only [Equiv.symm_apply_apply, map_pow, bind₁_X_right, loc, Fin.insertNth_apply_succAbove, coord]
      cases flip i <;> simp
  change (∫ x in Set.Icc (0 : Fin n → ℝ) 1, _) = _
  simp only [hm]
  rw [integral_const_mul, cube_prod fun (j : Fin n) (t : ℝ) => (if flip (turn.symm j) then 1 - t else t) ^ a (k.succAbove (turn.symm j))]
  congr 1
  simp only [pow_int]
  exact Equiv.prod_comp turn.symm fun i => (1 / ((a (k.succAbove i) : ℝ) + 1))

lemma cube_moment {D : Nat} (a : Fin D →₀ ℕ) (c : ℝ) : cube D (monomial a c) = c * ∏ i, (1 / ((a i : ℝ) + 1)) := by
  change (∫ x in Set.Icc (0 : Fin D → ℝ) 1, eval x (monomial a c)) = _
  simp only [eval_monomial, Finsupp.prod_fintype _ _ (fun _ => pow_zero _)]
  rw [integral_const_mul, cube_prod (fun i t => t ^ a i)]
  simp

/-- How the coordinates are turned does not matter to the integral over a face. -/
lemma cube_turn {n : Nat} (k : Fin (n + 1)) (b : Bool) (t t' : Equiv.Perm (Fin n)) (f f' : Fin n → Bool) (q : Poly (n + 1) ℝ) :
    cube n (bind₁ (loc (.box k b t f)) q) = cube n (bind₁ (loc (.box k b t' f')) q) := by
  let L : Poly (n + 1) ℝ →ₗ[ℝ] ℝ := (cube n).comp (bind₁ (loc (.box k b t f))).toLinearMap
  let R : Poly (n + 1) ℝ →ₗ[ℝ] ℝ := (cube n).comp (bind₁ (loc (.box k b t' f'))).toLinearMap
  suffices H : L = R from LinearMap.congr_fun H q
  refine (basisMonomials (Fin (n + 1)) ℝ).ext fun a => ?_
  rw [coe_basisMonomials]
  change cube n (bind₁ (loc (.box k b t f)) (monomial a (1 : ℝ))) = cube n (bind₁ (loc (.box k b t' f')) (monomial a (1 : ℝ)))
  rw [cube_monomial, cube_monomial]

/-- Gauss' theorem for one component. -/
lemma cube_gauss {n : Nat} (k : Fin (n + 1)) (t t' : Equiv.Perm (Fin n)) (f f' : Fin n → Bool) (q : Poly (n + 1) ℝ) :
    cube (n + 1) (pderiv k q) = cube n (bind₁ (loc (.box k true t f)) q) - cube n (bind₁ (loc (.box k false t' f')) q) := by
  let L : Poly (n + 1) ℝ →ₗ[ℝ] ℝ := (cube (n + 1)).comp (pderiv k : Derivation ℝ (Poly (n + 1) ℝ) (Poly (n + 1) ℝ)).toLinearMap
  let R : Poly (n + 1) ℝ →ₗ[ℝ] ℝ := (cube n).comp (bind₁ (loc (.box k true t f))).toLinearMap - (cube n).comp (bind₁ (loc (.box k false t' f'))).toLinearMap
  suffices H : L = R from LinearMap.congr_fun H q
  refine (basisMonomials (Fin (n + 1)) ℝ).ext fun a => ?_
  rw [coe_basisMonomials]
  change cube (n + 1) (pderiv k (monomial a (1 : ℝ))) = cube n (bind₁ (loc (.box k true t f)) (monomial a (1 : ℝ))) -
    cube n (bind₁ (loc (.box k false t' f')) (monomial a (1 : ℝ)))
  rw [cube_monomial, cube_monomial, pderiv_monomial, cube_moment, Fin.prod_univ_succAbove _ k]
  have h1 : ∀ i, (a - Finsupp.single k 1 : Fin (n + 1) →₀ ℕ) (k.succAbove i) = a (k.succAbove i) := by
    intro i
    simp [Finsupp.single_apply, (Fin.succAbove_ne k i).symm]
  simp only [h1]
  by_cases hk : a k = 0
  · simp [hk]
  · obtain ⟨r, hr⟩ : ∃ r, a k = r + 1 := ⟨a k - 1, by omega⟩
    have : ((r : ℝ) + 1) ≠ 0 := by positivity
    simp [hr]
    field_simp

/-- A polynomial that is not zero and nowhere negative on the cube has a positive integral. -/
lemma cube_pos {D : Nat} (q : Poly D ℝ) (hq : q ≠ 0) (h : ∀ x : Fin D → ℝ, (∀ i, 0 ≤ x i ∧ x i ≤ 1) → 0 ≤ eval x q) : 0 < cube D q := by
  obtain ⟨x, hx, hne⟩ : ∃ x : Fin D → ℝ, (∀ i, 0 < x i ∧ x i < 1) ∧ eval x q ≠ 0 := by
    by_contra hc
    push Not at hc
    refine hq (funext_set (fun _ => Set.Ioo (0 : ℝ) 1) (fun _ => Set.Ioo_infinite zero_lt_one) fun x hx => ?_)
    rw [map_zero]
    exact hc x fun i => hx i (Set.mem_univ i)
  have hin : ∀ y ∈ Set.Icc (0 : Fin D → ℝ) 1, 0 ≤ eval y q := fun y hy => h y fun i => ⟨hy.1 i, hy.2 i⟩
  change 0 < ∫ x in Set.Icc (0 : Fin D → ℝ) 1, eval x q
  rw [setIntegral_pos_iff_support_of_nonneg_ae ((ae_restrict_iff' measurableSet_Icc).2 (Filter.Eventually.of_forall hin)) (integrable q)]
  have ho : IsOpen ({y : Fin D → ℝ | eval y q ≠ 0} ∩ Set.univ.pi fun _ => Set.Ioo (0 : ℝ) 1) :=
    (isOpen_ne_fun (MvPolynomial.continuous_eval q) continuous_const).inter (isOpen_set_pi Set.finite_univ fun _ _ => isOpen_Ioo)
  refine lt_of_lt_of_le (ho.measure_pos volume ⟨x, hne, fun i _ => hx i⟩) (measure_mono fun y hy => ⟨hy.1, ?_⟩)
  exact ⟨fun i => (hy.2 i trivial).1.le, fun i => (hy.2 i trivial).2.le⟩

end Dgtd.Straight
