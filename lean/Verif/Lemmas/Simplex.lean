/-
Integrals of polynomials over simplices: symmetry, Gauss' theorem, degrees, the chain rule.
-/
import Verif.Spec.Galerkin
import Mathlib.Tactic.Ring
import Mathlib.Tactic.FieldSimp
import Mathlib.Tactic.LinearCombination
import Mathlib.Tactic.FinCases

set_option linter.unusedSectionVars false

namespace Dgtd.Galerkin
open MvPolynomial Spec

section
variable {n : Nat} {ι K : Type} [Field K]

lemma integral_monomial {D : Nat} (a : Fin D →₀ ℕ) (c : K) : integral D (monomial a c) = c * moment D a := by
  have h : monomial a c = c • (basisMonomials (Fin D) K) a := by
    rw [coe_basisMonomials, smul_monomial, smul_eq_mul, mul_one]
  rw [h, map_smul, integral, Module.Basis.constr_basis, smul_eq_mul]

variable [CharZero K]

lemma fac_ne (k : Nat) : (k.factorial : K) ≠ 0 := by exact_mod_cast k.factorial_ne_zero

/-- Products of powers of the barycentric coordinates. -/
lemma integral_bary (b : Fin (n + 1) → ℕ) : integral n (∏ i, (bary i : Poly n K) ^ b i) =
    (∏ i, ((b i).factorial : K)) / ((∑ i, b i + n).factorial : K) := by
  suffices H : ∀ (c : ℕ) (b : Fin n → ℕ), integral n ((1 - ∑ j, X j : Poly n K) ^ c * ∏ i, (X i) ^ b i) =
      ((c.factorial : K) * ∏ i, ((b i).factorial : K)) / ((c + ∑ i, b i + n).factorial : K) by
    rw [Fin.prod_univ_succ, Fin.prod_univ_succ, Fin.sum_univ_succ]
    exact H (b 0) fun i => b i.succ
  intro c
  induction c with
  | zero =>
    intro b
    rw [pow_zero, one_mul]
    have : (∏ i, (X i : Poly n K) ^ b i) = monomial (Finsupp.equivFunOnFinite.symm b) 1 := by
      rw [monomial_eq, C_1, one_mul, Finsupp.prod_fintype _ _ (by simp)]
      rfl
    rw [this, integral_monomial]
    simp [moment]
  | succ c ih =>
    intro b
    have e : ((1 - ∑ j, X j : Poly n K) ^ (c + 1) * ∏ i, (X i) ^ b i) = (1 - ∑ j, X j) ^ c * ∏ i, (X i) ^ b i -
        ∑ k, (1 - ∑ j, X j) ^ c * ∏ i, (X i) ^ ((b + Pi.single k 1 : Fin n → ℕ) i) := by
      have : ∀ k, (∏ i, (X i : Poly n K) ^ ((b + Pi.single k 1 : Fin n → ℕ) i)) = X k * ∏ i, (X i) ^ b i := by
        intro k
        simp only [Pi.add_apply, pow_add, Finset.prod_mul_distrib]
        rw [mul_comm]
        congr 1
        rw [Finset.prod_eq_single k]
        · simp
        · intro j _ hj
          simp [Pi.single_apply, hj]
        · simp
      simp only [this]
      rw [pow_succ, ← Finset.mul_sum, ← Finset.sum_mul]
      ring
    rw [e, map_sub, map_sum, ih]
    simp only [ih]
    have f1 : ∀ k, (∏ i, (((b + Pi.single k 1 : Fin n → ℕ) i).factorial : K)) = ((b k : K) + 1) * ∏ i, ((b i).factorial : K) := by
      intro k
      rw [← Finset.mul_prod_erase _ _ (Finset.mem_univ k), ← Finset.mul_prod_erase (f := fun i => ((b i).factorial : K)) _ (Finset.mem_univ k)]
      have : ∀ i ∈ Finset.univ.erase k, (((b + Pi.single k 1 : Fin n → ℕ) i).factorial : K) = ((b i).factorial : K) := by
        intro i hi
        simp [Pi.single_apply, (Finset.mem_erase.1 hi).1]
      rw [Finset.prod_congr rfl this]
      simp [Nat.factorial_succ]
      ring
    have f2 : ∀ k, ∑ i, (b + Pi.single k 1 : Fin n → ℕ) i = ∑ i, b i + 1 := by
      intro k
      simp [Finset.sum_add_distrib, Pi.single_apply]
    simp only [f1, f2]
    simp only [div_eq_mul_inv]
    rw [← Finset.sum_mul, ← Finset.mul_sum, ← Finset.sum_mul, Finset.sum_add_distrib]
    have e1 : c + (∑ i, b i + 1) + n = (c + ∑ i, b i + n) + 1 := by omega
    have e2 : c + 1 + ∑ i, b i + n = (c + ∑ i, b i + n) + 1 := by omega
    rw [e1, e2]
    generalize hS : c + ∑ i, b i + n = S
    have hS' : (S : K) = c + ∑ i, (b i : K) + n := by rw [← hS]; push_cast; ring
    have h0 := fac_ne (K := K) S
    have h1 : (S : K) + 1 ≠ 0 := by exact_mod_cast S.succ_ne_zero
    rw [Nat.factorial_succ, Nat.factorial_succ]
    push_cast
    simp only [Finset.sum_const, Finset.card_univ, Fintype.card_fin, nsmul_eq_mul, mul_one]
    field_simp
    rw [hS']
    ring

/-- What a monomial becomes on a face. -/
lemma bind_monomial (face : Option (Fin (n + 1))) (turn : Equiv.Perm (Fin (n + 1))) (a : Fin (n + 1) →₀ ℕ) :
    integral n (bind₁ (loc face turn) (monomial a (1 : K))) =
      if ∃ k, face = some k ∧ a k ≠ 0 then 0 else (∏ i, ((a i).factorial : K)) / ((∑ i, a i + n).factorial : K) := by
  have hm : bind₁ (loc face turn) (monomial a (1 : K)) = ∏ j, (loc face turn j : Poly n K) ^ a j := by
    rw [monomial_eq, map_mul, bind₁_C_right, C_1, one_mul, Finsupp.prod_fintype _ _ (by simp), map_prod]
    simp
  rw [hm]
  by_cases h : ∃ k, face = some k ∧ a k ≠ 0
  · rw [if_pos h]
    obtain ⟨k, hk, hak⟩ := h
    rw [Finset.prod_eq_zero (Finset.mem_univ k), map_zero]
    simp [loc, hk, hak]
  · rw [if_neg h]
    have : ∀ j, (loc face turn j : Poly n K) ^ a j = (bary (turn j)) ^ a (turn.symm (turn j)) := by
      intro j
      rw [Equiv.symm_apply_apply]
      unfold loc
      by_cases hj : face = some j
      · have : a j = 0 := by
          by_contra h'
          exact h ⟨j, hj, h'⟩
        rw [this, pow_zero, pow_zero]
      · rw [if_neg hj]
    rw [Finset.prod_congr rfl fun j _ => this j, Equiv.prod_comp turn fun i => (bary i : Poly n K) ^ a (turn.symm i), integral_bary]
    rw [Equiv.prod_comp turn.symm fun i => ((a i).factorial : K), Equiv.sum_comp turn.symm fun i => a i]

/-- Gauss' theorem for one component. -/
lemma gauss_one (k : Fin (n + 1)) (t t' : Equiv.Perm (Fin (n + 1))) (q : Poly (n + 1) K) :
    integral (n + 1) (pderiv k q) = integral n (bind₁ (loc none t) q) - integral n (bind₁ (loc (some k) t') q) := by
  let L : Poly (n + 1) K →ₗ[K] K := (integral (n + 1)).comp (pderiv k : Derivation K (Poly (n + 1) K) (Poly (n + 1) K)).toLinearMap
  let R : Poly (n + 1) K →ₗ[K] K := (integral n).comp (bind₁ (loc none t)).toLinearMap - (integral n).comp (bind₁ (loc (some k) t')).toLinearMap
  suffices H : L = R from LinearMap.congr_fun H q
  refine (basisMonomials (Fin (n + 1)) K).ext fun a => ?_
  rw [coe_basisMonomials]
  change integral (n + 1) (pderiv k (monomial a (1 : K))) = integral n (bind₁ (loc none t) (monomial a (1 : K))) -
    integral n (bind₁ (loc (some k) t') (monomial a (1 : K)))
  rw [bind_monomial, bind_monomial, pderiv_monomial, integral_monomial, if_neg (by simp)]
  by_cases hk : a k = 0
  · rw [if_neg (by rintro ⟨j, h1, h2⟩; cases h1; exact h2 hk), hk]
    simp
  · rw [if_pos ⟨k, rfl, hk⟩, sub_zero, one_mul]
    unfold moment
    have e1 : ∑ i, (a - Finsupp.single k 1 : Fin (n + 1) →₀ ℕ) i + (n + 1) = ∑ i, a i + n := by
      have : ∑ i, a i = ∑ i, (a - Finsupp.single k 1 : Fin (n + 1) →₀ ℕ) i + 1 := by
        rw [← Finset.add_sum_erase _ _ (Finset.mem_univ k), ← Finset.add_sum_erase (f := fun i => (a - Finsupp.single k 1 : Fin (n + 1) →₀ ℕ) i) _ (Finset.mem_univ k)]
        have : ∀ i ∈ Finset.univ.erase k, (a - Finsupp.single k 1 : Fin (n + 1) →₀ ℕ) i = a i := by
          intro i hi
          simp [Finsupp.single_apply, (Finset.mem_erase.1 hi).1.symm]
        rw [Finset.sum_congr rfl this]
        have e : (Finset.univ.erase k).sum (⇑a) = ∑ x ∈ Finset.univ.erase k, a x := rfl
        simp
        rw [e]
        omega
      omega
    have e2 : (∏ i, ((a i).factorial : K)) = (a k : K) * ∏ i, (((a - Finsupp.single k 1 : Fin (n + 1) →₀ ℕ) i).factorial : K) := by
      rw [← Finset.mul_prod_erase _ _ (Finset.mem_univ k),
        ← Finset.mul_prod_erase (f := fun i => (((a - Finsupp.single k 1 : Fin (n + 1) →₀ ℕ) i).factorial : K)) _ (Finset.mem_univ k)]
      have : ∀ i ∈ Finset.univ.erase k, (((a - Finsupp.single k 1 : Fin (n + 1) →₀ ℕ) i).factorial : K) = ((a i).factorial : K) := by
        intro i hi
        simp [Finsupp.single_apply, (Finset.mem_erase.1 hi).1.symm]
      rw [Finset.prod_congr rfl this]
      obtain ⟨r, hr⟩ : ∃ r, a k = r + 1 := ⟨a k - 1, by omega⟩
      simp [hr, Nat.factorial_succ]
      ring
    rw [e1, e2]
    ring

/-- Gauss' theorem: the integral of a divergence is that of the fluxes through the faces, however they are turned. -/
lemma gauss (F : Fin (n + 1) → Poly (n + 1) K) (turn : Option (Fin (n + 1)) → Equiv.Perm (Fin (n + 1))) :
    integral (n + 1) (∑ k, pderiv k (F k)) =
      ((none :: (List.finRange (n + 1)).map some).map fun f => integral n (bind₁ (loc f (turn f)) (∑ k, C (refNormal f k) * F k))).sum := by
  rw [map_sum]
  rw [Finset.sum_congr rfl fun k _ => gauss_one k (turn none) (turn (some k)) (F k)]
  rw [Finset.sum_sub_distrib, List.map_cons, List.sum_cons, List.map_map]
  have h1 : (∑ k, C (refNormal (K := K) none k) * F k) = ∑ k, F k := by simp [refNormal]
  have h2 : ∀ j, (∑ k, C (refNormal (K := K) (some j) k) * F k) = -F j := by
    intro j
    rw [Finset.sum_eq_single j]
    · simp [refNormal]
    · intro k _ hk; simp [refNormal, hk]
    · simp
  rw [h1, ← List.ofFn_eq_map, List.sum_ofFn, sub_eq_add_neg, ← Finset.sum_neg_distrib, map_sum, map_sum]
  congr 1
  refine Finset.sum_congr rfl fun k _ => ?_
  change _ = integral n (bind₁ (loc (some k) (turn (some k))) (∑ j, C (refNormal (some k) j) * F j))
  rw [h2, map_neg, map_neg]

/-- How the vertices are turned does not matter to the integral over a face. -/
lemma integral_turn (f : Option (Fin (n + 1))) (t t' : Equiv.Perm (Fin (n + 1))) (q : Poly (n + 1) K) :
    integral n (bind₁ (loc f t) q) = integral n (bind₁ (loc f t') q) := by
  let L : Poly (n + 1) K →ₗ[K] K := (integral n).comp (bind₁ (loc f t)).toLinearMap
  let R : Poly (n + 1) K →ₗ[K] K := (integral n).comp (bind₁ (loc f t')).toLinearMap
  suffices H : L = R from LinearMap.congr_fun H q
  refine (basisMonomials (Fin (n + 1)) K).ext fun a => ?_
  rw [coe_basisMonomials]
  change integral n (bind₁ (loc f t) (monomial a (1 : K))) = integral n (bind₁ (loc f t') (monomial a (1 : K)))
  rw [bind_monomial, bind_monomial]

end

section
variable {n : Nat} {ι K : Type} [Field K]

/-- The order of differentiation does not matter. -/
lemma pderiv_comm' {D : Nat} (i j : Fin D) (q : Poly D K) : pderiv i (pderiv j q) = pderiv j (pderiv i q) := by
  induction q using MvPolynomial.induction_on with
  | C a => simp
  | add p q hp hq => simp [hp, hq]
  | mul_X p k hp =>
    simp only [pderiv_mul, map_add, hp, pderiv_X, Pi.single_apply]
    split_ifs <;> simp <;> ring

/-- Chain rule. -/
lemma pderiv_bind {D E : Nat} (f : Fin D → Poly E K) (c : Fin E) (q : Poly D K) :
    pderiv c (bind₁ f q) = ∑ j, bind₁ f (pderiv j q) * pderiv c (f j) := by
  induction q using MvPolynomial.induction_on with
  | C a => simp
  | add p q hp hq => simp [hp, hq, add_mul, Finset.sum_add_distrib]
  | mul_X p k hp =>
    simp only [pderiv_mul, map_add, map_mul, bind₁_X_right, hp, add_mul, Finset.sum_add_distrib, Finset.sum_mul]
    congr 1
    · refine Finset.sum_congr rfl fun j _ => by ring
    · rw [Finset.sum_eq_single k]
      · simp
      · intro j _ hj; simp [Pi.single_apply, hj]
      · simp

/-! ### degrees -/

lemma totalDegree_pderiv {D : Nat} (k : Fin D) (q : Poly D K) : (pderiv k q).totalDegree ≤ q.totalDegree - 1 := by
  refine Finset.sup_le fun a ha => ?_
  rw [mem_support_iff, coeff_pderiv] at ha
  have : a + Finsupp.single k 1 ∈ q.support := by
    rw [mem_support_iff]; intro h; rw [h] at ha; simp at ha
  have := le_totalDegree this
  rw [Finsupp.sum_add_index' (by simp) (by simp), Finsupp.sum_single_index rfl] at this
  omega

lemma totalDegree_bind {D E : Nat} (f : Fin D → Poly E K) (hf : ∀ j, (f j).totalDegree ≤ 1) (q : Poly D K) :
    (bind₁ f q).totalDegree ≤ q.totalDegree := by
  rw [bind₁, aeval_def, eval₂_eq']
  refine (totalDegree_finsetSum _ _).trans (Finset.sup_le fun a ha => ?_)
  refine (totalDegree_mul _ _).trans ?_
  rw [algebraMap_eq, totalDegree_C, zero_add]
  refine (totalDegree_finsetProd _ _).trans (le_trans ?_ (le_totalDegree ha))
  rw [Finsupp.sum_fintype _ _ (by simp)]
  refine Finset.sum_le_sum fun j _ => (totalDegree_pow _ _).trans ?_
  calc a j * (f j).totalDegree ≤ a j * 1 := Nat.mul_le_mul_left _ (hf j)
    _ = a j := mul_one _

lemma totalDegree_bary (i : Fin (n + 1)) : (bary i : Poly n K).totalDegree ≤ 1 := by
  refine Fin.cases ?_ (fun j => ?_) i
  · change (1 - ∑ j, X j : Poly n K).totalDegree ≤ 1
    refine (totalDegree_sub _ _).trans (max_le (by simp) ?_)
    exact (totalDegree_finsetSum _ _).trans (Finset.sup_le fun j _ => by simp)
  · change (X j : Poly n K).totalDegree ≤ 1
    simp

lemma totalDegree_loc (f : Option (Fin (n + 1))) (t : Equiv.Perm (Fin (n + 1))) (j : Fin (n + 1)) :
    (loc f t j : Poly n K).totalDegree ≤ 1 := by
  unfold loc
  split
  · simp
  · exact totalDegree_bary _

lemma Side.totalDegree_restrict (s : Side n ι K) (q : Poly (n + 1) K) : (s.restrict q).totalDegree ≤ q.totalDegree :=
  totalDegree_bind _ (totalDegree_loc _ _) q

lemma degree_mul_le {D a b : Nat} {p q : Poly D K} (hp : p.totalDegree ≤ a) (hq : q.totalDegree ≤ b) :
    (p * q).totalDegree ≤ a + b := (totalDegree_mul _ _).trans (add_le_add hp hq)

lemma degree_sum_le {D a : Nat} {α : Type} {s : Finset α} {f : α → Poly D K} (h : ∀ i ∈ s, (f i).totalDegree ≤ a) :
    (∑ i ∈ s, f i).totalDegree ≤ a := (totalDegree_finsetSum _ _).trans (Finset.sup_le h)

lemma degree_add_le {D a : Nat} {p q : Poly D K} (hp : p.totalDegree ≤ a) (hq : q.totalDegree ≤ a) :
    (p + q).totalDegree ≤ a := (totalDegree_add _ _).trans (max_le hp hq)

lemma degree_sub_le {D a : Nat} {p q : Poly D K} (hp : p.totalDegree ≤ a) (hq : q.totalDegree ≤ a) :
    (p - q).totalDegree ≤ a := (totalDegree_sub _ _).trans (max_le hp hq)

/-! ### the adjugate of the Jacobian -/

lemma adj_zero (e : Elem 0 ι K) (k d : Fin 1) : e.adj k d = 1 := by
  have hk : k = 0 := Subsingleton.elim _ _
  have hd : d = 0 := Subsingleton.elim _ _
  subst hk hd
  simp [Elem.adj, Matrix.adjugate_fin_one]

lemma adj_one (e : Elem 1 ι K) : e.adj = !![e.jac 1 1, -e.jac 0 1; -e.jac 1 0, e.jac 0 0] := by
  rw [Elem.adj, Matrix.adjugate_fin_two]

lemma adj_two (e : Elem 2 ι K) : e.adj = !![e.jac 1 1 * e.jac 2 2 - e.jac 1 2 * e.jac 2 1,
    -(e.jac 0 1 * e.jac 2 2) + e.jac 0 2 * e.jac 2 1, e.jac 0 1 * e.jac 1 2 - e.jac 0 2 * e.jac 1 1;
    -(e.jac 1 0 * e.jac 2 2) + e.jac 1 2 * e.jac 2 0, e.jac 0 0 * e.jac 2 2 - e.jac 0 2 * e.jac 2 0,
    -(e.jac 0 0 * e.jac 1 2) + e.jac 0 2 * e.jac 1 0;
    e.jac 1 0 * e.jac 2 1 - e.jac 1 1 * e.jac 2 0, -(e.jac 0 0 * e.jac 2 1) + e.jac 0 1 * e.jac 2 0,
    e.jac 0 0 * e.jac 1 1 - e.jac 0 1 * e.jac 1 0] := by
  rw [Elem.adj, Matrix.adjugate_fin_three]

lemma jac_eq (e : Elem n ι K) (d k : Fin (n + 1)) : e.jac d k = pderiv k (e.geom d) := rfl

/-- The columns of the adjugate have no divergence. -/
lemma piola : ∀ {n : Nat} (_ : n < 3) (e : Elem n ι K) (d : Fin (n + 1)), ∑ k, pderiv k (e.adj k d) = 0
  | 0, _, e, d => by simp [adj_zero]
  | 1, _, e, d => by
    rw [adj_one]
    fin_cases d <;> simp [Fin.sum_univ_two, jac_eq, pderiv_comm' (1 : Fin 2) 0]
  | 2, _, e, d => by
    rw [adj_two]
    have h10 := pderiv_comm' (K := K) (1 : Fin 3) 0
    have h20 := pderiv_comm' (K := K) (2 : Fin 3) 0
    have h21 := pderiv_comm' (K := K) (2 : Fin 3) 1
    fin_cases d <;> simp [Fin.sum_univ_three, jac_eq, pderiv_mul, h10, h20, h21] <;> ring

lemma degree_jac {m : Nat} (e : Elem n ι K) (h : ∀ d, (e.geom d).totalDegree ≤ m) (d k : Fin (n + 1)) :
    (e.jac d k).totalDegree ≤ m - 1 := (totalDegree_pderiv k _).trans (Nat.sub_le_sub_right (h d) 1)

lemma degree_adjugate_two {D r : Nat} (J : Matrix (Fin 2) (Fin 2) (Poly D K)) (H : ∀ a b, (J a b).totalDegree ≤ r) (k d : Fin 2) :
    (J.adjugate k d).totalDegree ≤ r := by
  rw [Matrix.adjugate_fin_two]
  have HN : ∀ a b, (-J a b).totalDegree ≤ r := fun a b => by rw [totalDegree_neg]; exact H a b
  fin_cases k <;> fin_cases d
  · exact H _ _
  · exact HN _ _
  · exact HN _ _
  · exact H _ _

lemma degree_adjugate_three {D r : Nat} (J : Matrix (Fin 3) (Fin 3) (Poly D K)) (H : ∀ a b, (J a b).totalDegree ≤ r) (k d : Fin 3) :
    (J.adjugate k d).totalDegree ≤ 2 * r := by
  have HM : ∀ a b c d, (J a b * J c d).totalDegree ≤ 2 * r := fun a b c d => by
    rw [two_mul]; exact degree_mul_le (H a b) (H c d)
  have HS : ∀ a b c d a' b' c' d', (J a b * J c d - J a' b' * J c' d').totalDegree ≤ 2 * r :=
    fun a b c d a' b' c' d' => degree_sub_le (HM a b c d) (HM a' b' c' d')
  have HA : ∀ a b c d a' b' c' d', (-(J a b * J c d) + J a' b' * J c' d').totalDegree ≤ 2 * r :=
    fun a b c d a' b' c' d' => degree_add_le (by rw [totalDegree_neg]; exact HM a b c d) (HM a' b' c' d')
  rw [Matrix.adjugate_fin_three]
  fin_cases k <;> fin_cases d
  · exact HS 1 1 2 2 1 2 2 1
  · exact HA 0 1 2 2 0 2 2 1
  · exact HS 0 1 1 2 0 2 1 1
  · exact HA 1 0 2 2 1 2 2 0
  · exact HS 0 0 2 2 0 2 2 0
  · exact HA 0 0 1 2 0 2 1 0
  · exact HS 1 0 2 1 1 1 2 0
  · exact HA 0 0 2 1 0 1 2 0
  · exact HS 0 0 1 1 0 1 1 0

lemma degree_adj {m : Nat} : ∀ {n : Nat} (_ : n < 3) (e : Elem n ι K) (_ : ∀ d, (e.geom d).totalDegree ≤ m) (k d : Fin (n + 1)),
    (e.adj k d).totalDegree ≤ n * (m - 1)
  | 0, _, e, _, k, d => by rw [adj_zero]; simp
  | 1, _, e, h, k, d => by rw [one_mul]; exact degree_adjugate_two _ (degree_jac e h) k d
  | 2, _, e, h, k, d => degree_adjugate_three _ (degree_jac e h) k d

/-! ### normals -/

lemma Side.jac_eq (s : Side n ι K) (d : Fin (n + 1)) (c : Fin n) :
    s.jac d c = ∑ j, s.restrict (s.e.jac d j) * pderiv c (loc s.face s.turn j) := pderiv_bind _ _ _

lemma refSide_jac (s : Side n ι K) (d : Fin (n + 1)) (c : Fin n) : (refSide s).jac d c = pderiv c (loc s.face s.turn d) := by
  simp [Side.jac, refSide, Side.restrict]

/-- The normal of a face is the adjugate times the normal of the face of the reference element. -/
lemma normal_eq : ∀ {n : Nat} (_ : n < 3) (s : Side n ι K) (d : Fin (n + 1)),
    (normal s).getD d 0 = ∑ k, s.restrict (s.e.adj k d) * (normal (refSide s)).getD k 0
  | 0, _, s, d => by
    have : d = 0 := Fin.ext (by omega)
    subst this
    simp [normal, adj_zero, Side.restrict, refSide]
  | 1, _, s, d => by
    rw [adj_one]
    fin_cases d <;> simp [normal, Fin.sum_univ_two, refSide_jac, Side.jac_eq s] <;> simp [Side.restrict] <;> ring
  | 2, _, s, d => by
    rw [adj_two]
    fin_cases d <;> simp [normal, Fin.sum_univ_three, refSide_jac, Side.jac_eq s] <;> simp [Side.restrict] <;> ring

lemma normal_length : ∀ {n : Nat} (_ : n < 3) (s : Side n ι K), (normal s).length = n + 1
  | 0, _, _ => rfl
  | 1, _, _ => rfl
  | 2, _, _ => rfl

end

end Dgtd.Galerkin
