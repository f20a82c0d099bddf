/-
Interpolation of smooth fields on straight meshes that may have quadrilaterals and hexahedra.
-/
import Verif.Lemmas.StraightResidual
import Verif.Lemmas.Interp

set_option linter.unusedSectionVars false

namespace Dgtd.Straight
open MvPolynomial Spec Dgtd.Op Dgtd.Op.Spec
open Dgtd.Galerkin (Poly Elem corner expos terms)
open Dgtd.Galerkin.Spec (onElem materialOf PField)
open Dgtd.Config (Material)
open scoped ContDiff

variable {n : Nat} {ι : Type} [Fintype ι] [DecidableEq ι] {S : Setup n ι} {p : Nat}

/-! ### convex hulls -/

lemma corner_in (sh : Shape) (e : Elem n ι ℝ) : InElem sh e (corner e) := ⟨0, inside_zero sh, rfl⟩

lemma elem_hull {sh : Shape} {e : Elem n ι ℝ} {y : Fin (n + 1) → ℝ} (hy : InElem sh e y) : y ∈ Hull sh e := subset_convexHull ℝ _ hy

lemma hull_star {sh : Shape} {e : Elem n ι ℝ} {y : Fin (n + 1) → ℝ} (hy : y ∈ Hull sh e) {s : ℝ} (h0 : 0 ≤ s) (h1 : s ≤ 1) :
    (fun i => corner e i + s * (y i - corner e i)) ∈ Hull sh e := by
  have := convex_convexHull ℝ {y | InElem sh e y} (elem_hull (corner_in sh e)) hy (sub_nonneg.2 h1) h0 (by ring)
  have e : (fun i => corner e i + s * (y i - corner e i)) = (1 - s) • corner e + s • y := by
    funext i
    simp only [Pi.add_apply, Pi.smul_apply, smul_eq_mul]
    ring
  rw [e]
  exact this

lemma hull_size {η ρ : ℝ} (hf : Fineness S η ρ) {c : Cell n ι} (hc : c ∈ S.cells) {y : Fin (n + 1) → ℝ} (hy : y ∈ Hull c.shape c.e) (i : Fin (n + 1)) :
    |y i - corner c.e i| ≤ η := by
  have hcv : Convex ℝ {y : Fin (n + 1) → ℝ | |y i - corner c.e i| ≤ η} := by
    intro x hx z hz a b ha hb hab
    simp only [Set.mem_ofPred_eq, Pi.add_apply, Pi.smul_apply, smul_eq_mul] at hx hz ⊢
    have e : a * x i + b * z i - corner c.e i = a * (x i - corner c.e i) + b * (z i - corner c.e i) := by
      linear_combination corner c.e i * hab
    rw [e]
    refine (abs_add_le _ _).trans ?_
    rw [abs_mul, abs_mul, abs_of_nonneg ha, abs_of_nonneg hb]
    have := mul_le_mul_of_nonneg_left hx ha
    have := mul_le_mul_of_nonneg_left hz hb
    have : a * η + b * η = η := by rw [← add_mul, hab, one_mul]
    linarith
  exact convexHull_min (fun z hz => hf.size c hc z _ hz (corner_in _ _) i) hcv hy

/-! ### polynomials of the position -/

lemma order_pow {D a : Nat} {sh : Shape} {q : Poly D ℝ} (h : Order sh a q) : ∀ k : Nat, Order sh (k * a) (q ^ k)
  | 0 => by rw [pow_zero, Nat.zero_mul, ← C_1]; exact order_C sh 1
  | k + 1 => by rw [pow_succ, Nat.succ_mul]; exact order_mul (order_pow h k) h

lemma order_prod {D : Nat} {α : Type} {sh : Shape} (s : Finset α) (a : α → Nat) (f : α → Poly D ℝ) (h : ∀ i ∈ s, Order sh (a i) (f i)) :
    Order sh (∑ i ∈ s, a i) (∏ i ∈ s, f i) := by
  classical
  induction s using Finset.induction_on with
  | empty => rw [Finset.sum_empty, Finset.prod_empty, ← C_1]; exact order_C sh 1
  | insert i s hi ih =>
    rw [Finset.sum_insert hi, Finset.prod_insert hi]
    exact order_mul (h i (Finset.mem_insert_self _ _)) (ih fun j hj => h j (Finset.mem_insert_of_mem hj))

lemma order_monomial {D E : Nat} {sh : Shape} (g : Fin D → Poly E ℝ) (hg : ∀ i, Order sh 1 (g i)) (a : Fin D →₀ ℕ) :
    Order sh (a.sum fun _ e => e) (bind₁ g (monomial a 1)) := by
  rw [bind₁_monomial, C_1, one_mul]
  have := order_prod a.support (fun i => a i * 1) (fun i => g i ^ a i) fun i _ => order_pow (hg i) (a i)
  simpa [Finsupp.sum] using this

/-- A polynomial of the position in the element has, in the coordinates of the reference element, the order of its degree. -/
lemma order_bind {D E : Nat} {sh : Shape} (g : Fin D → Poly E ℝ) (hg : ∀ i, Order sh 1 (g i)) (q : Poly D ℝ) (hq : q.totalDegree ≤ p) :
    Order sh p (bind₁ g q) := by
  rw [terms q hq, map_sum]
  refine order_sum fun a ha => ?_
  rw [map_mul, bind₁_C_right]
  have := order_mul (order_C (D := E) sh (coeff a q)) (order_monomial g hg a)
  exact order_mono this (by rw [Nat.zero_add]; exact (Finset.mem_filter.1 ha).2)

/-! ### unknowns of polynomial fields -/

lemma dof_unique (h : ValidMesh S p) {c c' : Cell n ι} (hc : c ∈ S.cells) (hc' : c' ∈ S.cells) {i j : Nat} (hi : i < c.e.size)
    (hj : j < c'.e.size) (e : c.e.dof i = c'.e.dof j) : c = c' ∧ i = j := by
  have hn := List.nodup_flatMap.1 h.dofs_nodup
  have hcc : c = c' := by
    by_contra hne
    have : Std.Symm (Function.onFun List.Disjoint fun c : Cell n ι => List.map c.e.dof (List.range c.e.size)) := ⟨fun a b hab => List.Disjoint.symm hab⟩
    have := hn.2.forall hc hc' hne
    exact this (List.mem_map.2 ⟨i, List.mem_range.2 hi, rfl⟩) (List.mem_map.2 ⟨j, List.mem_range.2 hj, e.symm⟩)
  subst hcc
  refine ⟨rfl, ?_⟩
  have hnd := hn.1 c hc
  exact List.inj_on_of_nodup_map hnd (List.mem_range.2 hi) (List.mem_range.2 hj) e

/-- Unknowns from coefficients on the elements. -/
lemma gather (h : ValidMesh S p) (a : Cell n ι → Nat → ℝ → FieldT → Dir → ℝ) :
    ∃ w : ℝ → State ι ℝ, ∀ c ∈ S.cells, ∀ i < c.e.size, ∀ t f d, w t f d (c.e.dof i) = a c i t f d := by
  have hex : ∀ r, ∃ q : Cell n ι × Nat, q.1 ∈ S.cells ∧ q.2 < q.1.e.size ∧ q.1.e.dof q.2 = r := by
    intro r
    obtain ⟨c, hc, hr⟩ := List.mem_flatMap.1 (h.dofs_all r)
    obtain ⟨i, hi, e⟩ := List.mem_map.1 hr
    exact ⟨(c, i), hc, List.mem_range.1 hi, e⟩
  choose q h1 h2 h3 using hex
  refine ⟨fun t f d r => a (q r).1 (q r).2 t f d, fun c hc i hi t f d => ?_⟩
  obtain ⟨e1, e2⟩ := dof_unique h (h1 (c.e.dof i)) hc (h2 _) hi (h3 _)
  simp only [e1, e2]

/-- Fields whose coefficients change in time, as unknowns that change in time. -/
lemma carry_time (h : ValidMesh S p)
    (hcom : ∀ c ∈ S.cells, ∀ q : Poly (n + 1) ℝ, Order c.shape p q → ∃ a : Nat → ℝ, q = ∑ i ∈ Finset.range c.e.size, C (a i) * c.e.shape i)
    (Q R : ℝ → PField n ι) (hQ : ∀ t, ∀ c ∈ S.cells, ∀ f d, (Q t c.e f d).totalDegree ≤ p)
    (hR : ∀ t, ∀ c ∈ S.cells, ∀ f d, (R t c.e f d).totalDegree ≤ p)
    (hd : ∀ t, ∀ c ∈ S.cells, ∀ f d a, HasDerivAt (fun t => coeff a (Q t c.e f d)) (coeff a (R t c.e f d)) t) :
    ∃ w r : ℝ → State ι ℝ, (∀ t, Carries S (Q t) (w t)) ∧ (∀ t, Carries S (R t) (r t)) ∧
      ∀ t f d i, HasDerivAt (fun t => w t f d i) (r t f d i) t := by
  have hb : ∀ c ∈ S.cells, ∀ a : Fin (n + 1) →₀ ℕ, (a.sum fun _ e => e) ≤ p → ∃ b : Nat → ℝ,
      bind₁ c.e.geom (monomial a 1) = ∑ i ∈ Finset.range c.e.size, C (b i) * c.e.shape i := fun c hc a ha =>
    hcom c hc _ (order_mono (order_monomial _ (h.geom c hc) a) ha)
  classical
  have hb' : ∀ (c : Cell n ι) (a : Fin (n + 1) →₀ ℕ), ∃ b : Nat → ℝ, c ∈ S.cells → (a.sum fun _ e => e) ≤ p →
      bind₁ c.e.geom (monomial a 1) = ∑ i ∈ Finset.range c.e.size, C (b i) * c.e.shape i := by
    intro c a
    by_cases hc : c ∈ S.cells ∧ (a.sum fun _ e => e) ≤ p
    · obtain ⟨b, hb⟩ := hb c hc.1 a hc.2
      exact ⟨b, fun _ _ => hb⟩
    · exact ⟨0, fun h1 h2 => absurd ⟨h1, h2⟩ hc⟩
  choose b hb using hb'
  obtain ⟨A, hA⟩ : ∃ A, A = (expos (n + 1) p).filter fun a => (a.sum fun _ e => e) ≤ p := ⟨_, rfl⟩
  have carr : ∀ (G : ℝ → PField n ι) (_ : ∀ t, ∀ c ∈ S.cells, ∀ f d, (G t c.e f d).totalDegree ≤ p) (w : ℝ → State ι ℝ)
      (_ : ∀ c ∈ S.cells, ∀ i < c.e.size, ∀ t f d, w t f d (c.e.dof i) = ∑ a ∈ A, coeff a (G t c.e f d) * b c a i), ∀ t, Carries S (G t) (w t) := by
    intro G hG w hw t c hc f d
    unfold onElem
    rw [Finset.sum_congr rfl fun i hi => by rw [hw c hc i (Finset.mem_range.1 hi) t f d]]
    conv_rhs => rw [terms (G t c.e f d) (hG t c hc f d), ← hA, map_sum]
    simp only [map_mul, bind₁_C_right]
    rw [Finset.sum_congr (s₁ := A) rfl fun a ha => by rw [hb c a hc (by rw [hA] at ha; exact (Finset.mem_filter.1 ha).2)]]
    simp only [Finset.mul_sum, map_sum, Finset.sum_mul, map_mul]
    rw [Finset.sum_comm]
    exact Finset.sum_congr rfl fun a _ => Finset.sum_congr rfl fun i _ => by ring
  obtain ⟨w, hw⟩ := gather h fun c i t f d => ∑ a ∈ A, coeff a (Q t c.e f d) * b c a i
  obtain ⟨r, hr⟩ := gather h fun c i t f d => ∑ a ∈ A, coeff a (R t c.e f d) * b c a i
  refine ⟨w, r, carr Q hQ w hw, carr R hR r hr, fun t f d j => ?_⟩
  obtain ⟨c, hc, hr'⟩ := List.mem_flatMap.1 (h.dofs_all j)
  obtain ⟨i, hi, rfl⟩ := List.mem_map.1 hr'
  have hi := List.mem_range.1 hi
  rw [hr c hc i hi]
  have : (fun t => w t f d (c.e.dof i)) = fun t => ∑ a ∈ A, coeff a (Q t c.e f d) * b c a i := funext fun t => hw c hc i hi t f d
  rw [this]
  exact HasDerivAt.fun_sum fun a _ => (hd t c hc f d a).mul_const _

end Dgtd.Straight
