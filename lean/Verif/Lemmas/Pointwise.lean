/-
The fields at a point are bounded by their energy, on elements that are not thin.
-/
import Verif.Lemmas.Inverse
import Mathlib.LinearAlgebra.Matrix.AbsoluteValue
import Mathlib.Algebra.Order.Chebyshev

set_option linter.unusedSectionVars false

namespace Dgtd.Galerkin
open MvPolynomial Spec Dgtd.Op Dgtd.Op.Spec
open Dgtd.Config (Material)

lemma simplex_le {D : Nat} {x : Fin D → ℝ} (hx : InSimplex x) (i : Fin D) : x i ≤ 1 :=
  (Finset.single_le_sum (f := x) (fun j _ => hx.1 j) (Finset.mem_univ i)).trans hx.2

/-- The values of a polynomial on the reference element are bounded by its mean square. -/
lemma sup_const {D : Nat} (hD : D ≤ 3) (p : Nat) : ∃ L, 0 ≤ L ∧ ∀ v : Poly D ℝ, v.totalDegree ≤ p → ∀ x, InSimplex x →
    eval x v ^ 2 ≤ L * integral D (v ^ 2) := by
  obtain ⟨A, hA⟩ : ∃ A : (expos D p → ℝ) →ₗ[ℝ] (expos D p → ℝ) →ₗ[ℝ] ℝ, ∀ u v, A u v = integral D (ofCoef _ _ u * ofCoef _ _ v) :=
    ⟨LinearMap.mk₂ ℝ (fun u v => integral D (ofCoef _ _ u * ofCoef _ _ v)) (by intros; simp [add_mul]) (by intros; simp)
      (by intros; simp [mul_add]) (by intros; simp), fun u v => rfl⟩
  obtain ⟨B, hB⟩ : ∃ B : (expos D p → ℝ) →ₗ[ℝ] (expos D p → ℝ) →ₗ[ℝ] ℝ, ∀ u v, B u v = ∑ a, u a * v a :=
    ⟨LinearMap.mk₂ ℝ (fun u v => ∑ a, u a * v a) (by intros; simp [add_mul, Finset.sum_add_distrib]) (by intros; simp [Finset.mul_sum, mul_assoc])
      (by intros; simp [mul_add, Finset.sum_add_distrib]) (by intros; simp [Finset.mul_sum, mul_left_comm]), fun u v => rfl⟩
  obtain ⟨L, hL, h⟩ := form_dom A B fun u hu => by
    rw [hA]
    refine integral_pos hD _ (fun h0 => hu (ofCoef_inj u (mul_self_eq_zero.1 h0))) fun x _ => ?_
    rw [map_mul]; exact mul_self_nonneg _
  refine ⟨Fintype.card (expos D p) * L, by positivity, fun v hv x hx => ?_⟩
  have k := h fun a => coeff a.1 v
  rw [hA, hB, ofCoef_coef v hv, ← sq] at k
  have e : eval x v = ∑ a : expos D p, coeff a.1 v * ∏ i, x i ^ a.1 i := by
    conv_lhs => rw [← ofCoef_coef v hv]
    change eval x (∑ a : expos D p, monomial a.1 (coeff a.1 v)) = _
    rw [map_sum]
    refine Finset.sum_congr rfl fun a _ => ?_
    rw [eval_monomial, Finsupp.prod_fintype _ _ (by simp)]
  have hmono : ∀ a : expos D p, (∏ i, x i ^ a.1 i) ^ 2 ≤ 1 := by
    intro a
    have h0 : 0 ≤ ∏ i, x i ^ a.1 i := Finset.prod_nonneg fun i _ => pow_nonneg (hx.1 i) _
    have h1 : ∏ i, x i ^ a.1 i ≤ 1 := Finset.prod_le_one (fun i _ => pow_nonneg (hx.1 i) _) fun i _ => pow_le_one₀ (hx.1 i) (simplex_le hx i)
    nlinarith
  rw [e]
  calc (∑ a : expos D p, coeff a.1 v * ∏ i, x i ^ a.1 i) ^ 2 ≤ Fintype.card (expos D p) * ∑ a : expos D p, (coeff a.1 v * ∏ i, x i ^ a.1 i) ^ 2 := by
        have := sq_sum_le_card_mul_sum_sq (s := (Finset.univ : Finset (expos D p))) (f := fun a => coeff a.1 v * ∏ i, x i ^ a.1 i)
        simpa using this
    _ ≤ Fintype.card (expos D p) * ∑ a : expos D p, coeff a.1 v * coeff a.1 v := by
        refine mul_le_mul_of_nonneg_left (Finset.sum_le_sum fun a _ => ?_) (Nat.cast_nonneg _)
        rw [mul_pow, sq (coeff a.1 v)]
        exact mul_le_of_le_one_right (mul_self_nonneg _) (hmono a)
    _ ≤ Fintype.card (expos D p) * (L * integral D (v ^ 2)) := mul_le_mul_of_nonneg_left k (Nat.cast_nonneg _)
    _ = _ := by ring

variable {n : Nat} {ι : Type} [Fintype ι] [DecidableEq ι] {S : Setup n ι} {p : Nat}

/-- An element that is not thin has some volume. -/
lemma det_lower (h : ValidMesh S p 1) {τ : ℝ} (ht : Thick S τ) {c : Cell n ι} (hc : c ∈ S.cells) {δ : ℝ} (hδ : 0 < δ) (hdet : c.e.jac.det = C δ) :
    τ ^ (n + 1) ≤ (n + 1).factorial * δ := by
  have hτ := ht.pos
  choose b hb hle using fun k d => adj_le h ht hc k d hdet
  have e1 : c.e.adj = (Matrix.of b).map (C : ℝ →+* Poly (n + 1) ℝ) := by
    ext1 k d
    exact hb k d
  have e2 : (Matrix.of b).det = δ ^ n := by
    apply C_injective (Fin (n + 1)) ℝ
    have : c.e.adj.det = c.e.jac.det ^ n := by
      have := Matrix.det_adjugate c.e.jac
      simpa [Elem.adj] using this
    rw [e1, hdet, ← C_pow] at this
    rw [← this, ← RingHom.mapMatrix_apply, RingHom.map_det]
  have e3 := Matrix.det_le (A := Matrix.of b) (abv := AbsoluteValue.abs) (x := δ / τ) (fun i j => hle i j)
  rw [e2] at e3
  simp only [AbsoluteValue.abs_apply, Fintype.card_fin, nsmul_eq_mul, div_pow] at e3
  rw [abs_of_pos (by positivity)] at e3
  rw [← mul_div_assoc, le_div_iff₀ (by positivity)] at e3
  have hp : 0 < δ ^ n := by positivity
  have : δ ^ n * τ ^ (n + 1) ≤ δ ^ n * ((n + 1).factorial * δ) := by
    calc _ ≤ _ := e3
      _ = _ := by ring
  exact le_of_mul_le_mul_left this hp

/-- One component in one element has no more energy than all the fields. -/
lemma part_le (h : ValidMesh S p 1) {ms : List (Int × Material ℝ)} {m0 m1 : ℝ} (hm0 : 0 < m0) (hb : Between S ms m0 m1) {c : Cell n ι} (hc : c ∈ S.cells)
    (u : State ι ℝ) (f : FieldT) (d : Dir) : m0 * integral (n + 1) (onElem c.e (u f d) ^ 2 * c.e.jac.det) ≤ 2 * fieldEnergy S ms u := by
  have nn : ∀ c' ∈ S.cells, ∀ f d, 0 ≤ integral (n + 1) (onElem c'.e (u f d) ^ 2 * c'.e.jac.det) := by
    intro c' hc' f d
    rw [sq]; exact sq_nonneg' h hc' _
  have nE : ∀ c' ∈ S.cells, 0 ≤ (materialOf ms c').eps := fun c' hc' => hm0.le.trans (hb c' hc').1.1
  have nH : ∀ c' ∈ S.cells, 0 ≤ (materialOf ms c').mu := fun c' hc' => hm0.le.trans (hb c' hc').2.1.1
  have hterm : ∀ c' ∈ S.cells, ∀ d, 0 ≤ (materialOf ms c').eps * integral (n + 1) (onElem c'.e (u .E d) ^ 2 * c'.e.jac.det) +
      (materialOf ms c').mu * integral (n + 1) (onElem c'.e (u .H d) ^ 2 * c'.e.jac.det) := fun c' hc' d =>
    add_nonneg (mul_nonneg (nE c' hc') (nn c' hc' _ _)) (mul_nonneg (nH c' hc') (nn c' hc' _ _))
  have h1 : m0 * integral (n + 1) (onElem c.e (u f d) ^ 2 * c.e.jac.det) ≤
      (materialOf ms c).eps * integral (n + 1) (onElem c.e (u .E d) ^ 2 * c.e.jac.det) +
      (materialOf ms c).mu * integral (n + 1) (onElem c.e (u .H d) ^ 2 * c.e.jac.det) := by
    have a1 := mul_nonneg (nE c hc) (nn c hc .E d)
    have a2 := mul_nonneg (nH c hc) (nn c hc .H d)
    cases f with
    | E => have := mul_le_mul_of_nonneg_right (hb c hc).1.1 (nn c hc .E d); linarith
    | H => have := mul_le_mul_of_nonneg_right (hb c hc).2.1.1 (nn c hc .H d); linarith
  have h2 := Finset.single_le_sum (f := fun d : Dir => (materialOf ms c).eps * integral (n + 1) (onElem c.e (u .E d) ^ 2 * c.e.jac.det) +
      (materialOf ms c).mu * integral (n + 1) (onElem c.e (u .H d) ^ 2 * c.e.jac.det)) (fun d _ => hterm c hc d) (Finset.mem_univ d)
  have h3 := List.single_le_sum (l := S.cells.map fun c => ∑ d : Dir, ((materialOf ms c).eps * integral (n + 1) (onElem c.e (u .E d) ^ 2 * c.e.jac.det) +
      (materialOf ms c).mu * integral (n + 1) (onElem c.e (u .H d) ^ 2 * c.e.jac.det))) (by
        intro a ha
        obtain ⟨c', hc', rfl⟩ := List.mem_map.1 ha
        exact Finset.sum_nonneg fun d _ => hterm c' hc' d) _ (List.mem_map_of_mem hc)
  unfold fieldEnergy
  linarith

/-- The fields at a point are bounded by the energy. -/
lemma point_le (h : ValidMesh S p 1) {ms : List (Int × Material ℝ)} {m0 m1 L τ : ℝ} (hm0 : 0 < m0) (hb : Between S ms m0 m1) (ht : Thick S τ)
    (hL0 : 0 ≤ L) (hL : ∀ v : Poly (n + 1) ℝ, v.totalDegree ≤ p → ∀ x, InSimplex x → eval x v ^ 2 ≤ L * integral (n + 1) (v ^ 2))
    {c : Cell n ι} (hc : c ∈ S.cells) (u : State ι ℝ) (f : FieldT) (d : Dir) (x : Fin (n + 1) → ℝ) (hx : InSimplex x) :
    |eval x (onElem c.e (u f d))| ≤ √(2 * L * (n + 1).factorial / (m0 * τ ^ (n + 1))) * √(fieldEnergy S ms u) := by
  have hτ := ht.pos
  obtain ⟨δ, hδ, hdet⟩ := det_const h hc
  have h1 := hL _ (fld_degree c.e (h.shape hc) (u f d)) x hx
  have h2 := part_le h hm0 hb hc u f d
  have h3 := det_lower h ht hc hδ hdet
  have e : integral (n + 1) (onElem c.e (u f d) ^ 2 * c.e.jac.det) = δ * integral (n + 1) (onElem c.e (u f d) ^ 2) := by
    rw [hdet, mul_comm, C_mul', map_smul, smul_eq_mul]
  rw [e] at h2
  have hI : 0 ≤ integral (n + 1) (onElem c.e (u f d) ^ 2) :=
    integral_nonneg (by have := h.simplicial.dim; omega) _ fun x _ => by rw [map_pow]; exact sq_nonneg _
  have hE : 0 ≤ fieldEnergy S ms u := by nlinarith [mul_nonneg hm0.le (mul_nonneg hδ.le hI)]
  rw [← Real.sqrt_mul (by positivity)]
  refine Real.abs_le_sqrt ?_
  change eval x (onElem c.e (u f d)) ^ 2 ≤ L * integral (n + 1) (onElem c.e (u f d) ^ 2) at h1
  refine h1.trans ?_
  rw [div_mul_eq_mul_div, le_div_iff₀ (by positivity)]
  have hfac : 0 < ((n + 1).factorial : ℝ) := by positivity
  calc L * integral (n + 1) (onElem c.e (u f d) ^ 2) * (m0 * τ ^ (n + 1)) ≤
        L * integral (n + 1) (onElem c.e (u f d) ^ 2) * (m0 * ((n + 1).factorial * δ)) :=
          mul_le_mul_of_nonneg_left (mul_le_mul_of_nonneg_left h3 hm0.le) (mul_nonneg hL0 hI)
    _ = L * (n + 1).factorial * (m0 * (δ * integral (n + 1) (onElem c.e (u f d) ^ 2))) := by ring
    _ ≤ L * (n + 1).factorial * (2 * fieldEnergy S ms u) := mul_le_mul_of_nonneg_left h2 (by positivity)
    _ = _ := by ring

end Dgtd.Galerkin
