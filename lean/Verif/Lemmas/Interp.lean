/-
Interpolation of smooth fields on a mesh of straight elements: the Taylor polynomials of a solution as unknowns that change in time.
-/
import Verif.Lemmas.Convergence

set_option linter.unusedSectionVars false

namespace Dgtd.Galerkin
open MvPolynomial Spec Dgtd.Op Dgtd.Op.Spec
open Dgtd.Config (Material)
open scoped ContDiff

variable {n : Nat} {ι : Type} [Fintype ι] [DecidableEq ι] {S : Setup n ι} {p : Nat}

/-! ### straight elements -/

lemma degree_one_cases {D : Nat} (a : Fin D →₀ ℕ) (h : (a.sum fun _ e => e) ≤ 1) : a = 0 ∨ ∃ i, a = Finsupp.single i 1 := by
  by_cases h0 : a = 0
  · exact Or.inl h0
  · right
    obtain ⟨i, hi⟩ := Finsupp.ne_iff.1 h0
    have hi : a i ≠ 0 := hi
    refine ⟨i, ?_⟩
    have hsum : (a.sum fun _ e => e) = ∑ j, a j := Finsupp.sum_fintype _ _ fun _ => rfl
    rw [hsum, ← Finset.add_sum_erase _ _ (Finset.mem_univ i)] at h
    have h1 : a i = 1 := by omega
    have h2 : ∑ j ∈ Finset.univ.erase i, a j = 0 := by omega
    ext j
    by_cases hj : i = j
    · subst hj; simpa using h1
    · rw [Finsupp.single_eq_of_ne (Ne.symm hj)]
      exact Finset.sum_eq_zero_iff.1 h2 j (Finset.mem_erase.2 ⟨fun h => hj h.symm, Finset.mem_univ j⟩)

lemma eval_affine {D : Nat} (q : Poly D ℝ) (hq : q.totalDegree ≤ 1) (x y : Fin D → ℝ) (s : ℝ) :
    eval (fun i => x i + s * (y i - x i)) q = eval x q + s * (eval y q - eval x q) := by
  have key : ∀ a ∈ q.support, eval (fun i => x i + s * (y i - x i)) (monomial a (coeff a q)) =
      eval x (monomial a (coeff a q)) + s * (eval y (monomial a (coeff a q)) - eval x (monomial a (coeff a q))) := by
    intro a ha
    rcases degree_one_cases a ((le_totalDegree ha).trans hq) with h0 | ⟨i, h1⟩
    · rw [h0]; simp
    · rw [h1]; simp [eval_monomial]; ring
  have e : ∀ z, eval z q = ∑ a ∈ q.support, eval z (monomial a (coeff a q)) := fun z => by
    conv_lhs => rw [q.as_sum]
    rw [map_sum]
  rw [e, e, e, Finset.sum_congr rfl key, Finset.sum_add_distrib, ← Finset.mul_sum, Finset.sum_sub_distrib]

/-- Image of the origin of the reference element. -/
noncomputable def corner (e : Elem n ι ℝ) : Fin (n + 1) → ℝ := fun d => eval 0 (e.geom d)

lemma origin_in {D : Nat} : InSimplex (0 : Fin D → ℝ) := ⟨fun i => le_rfl, by simp⟩

lemma elem_star (h : ValidMesh S p 1) {c : Cell n ι} (hc : c ∈ S.cells) (y : Fin (n + 1) → ℝ) (hy : InElem c.e y) (s : ℝ) (h0 : 0 ≤ s)
    (h1 : s ≤ 1) : InElem c.e fun i => corner c.e i + s * (y i - corner c.e i) := by
  obtain ⟨x, hx, rfl⟩ := hy
  refine ⟨fun i => (0 : Fin (n + 1) → ℝ) i + s * (x i - (0 : Fin (n + 1) → ℝ) i), ⟨fun i => ?_, ?_⟩, ?_⟩
  · simpa using mul_nonneg h0 (hx.1 i)
  · simp only [Pi.zero_apply, zero_add, sub_zero, ← Finset.mul_sum]
    have := hx.2
    have h2 : 0 ≤ ∑ i, x i := Finset.sum_nonneg fun i _ => hx.1 i
    nlinarith
  · funext d
    rw [eval_affine _ (h.geom hc d)]
    rfl

/-! ### unknowns of polynomial fields -/

lemma dof_unique {m : Nat} (h : ValidMesh S p m) {c c' : Cell n ι} (hc : c ∈ S.cells) (hc' : c' ∈ S.cells) {i j : Nat} (hi : i < c.e.size)
    (hj : j < c'.e.size) (e : c.e.dof i = c'.e.dof j) : c = c' ∧ i = j := by
  have hn := List.nodup_flatMap.1 h.dofs_nodup
  have hcc : c = c' := by
    by_contra hne
    have : Std.Symm (Function.onFun List.Disjoint fun c : Cell n ι => List.map c.e.dof (List.range c.e.size)) := ⟨fun a b hab => List.Disjoint.symm hab⟩
    have := hn.2.forall hc hc' hne
    exact this (List.mem_map.2 ⟨i, List.mem_range.2 hi, rfl⟩) (List.mem_map.2 ⟨j, List.mem_range.2 hj, e.symm⟩)
  subst hcc
  refine ⟨rfl, ?_⟩
  have hnd := hn.1 c hc
  exact List.inj_on_of_nodup_map hnd (List.mem_range.2 hi) (List.mem_range.2 hj) e

/-- Unknowns from coefficients on the elements. -/
lemma gather {m : Nat} (h : ValidMesh S p m) (a : Cell n ι → Nat → ℝ → FieldT → Dir → ℝ) :
    ∃ w : ℝ → State ι ℝ, ∀ c ∈ S.cells, ∀ i < c.e.size, ∀ t f d, w t f d (c.e.dof i) = a c i t f d := by
  have hex : ∀ r, ∃ q : Cell n ι × Nat, q.1 ∈ S.cells ∧ q.2 < q.1.e.size ∧ q.1.e.dof q.2 = r := by
    intro r
    obtain ⟨c, hc, hr⟩ := List.mem_flatMap.1 (h.dofs_all r)
    obtain ⟨i, hi, e⟩ := List.mem_map.1 hr
    exact ⟨(c, i), hc, List.mem_range.1 hi, e⟩
  choose q h1 h2 h3 using hex
  refine ⟨fun t f d r => a (q r).1 (q r).2 t f d, fun c hc i hi t f d => ?_⟩
  obtain ⟨e1, e2⟩ := dof_unique h (h1 (c.e.dof i)) hc (h2 _) hi (h3 _)
  simp only [e1, e2]

/-- The terms of a polynomial. -/
lemma terms {D : Nat} (q : Poly D ℝ) (hq : q.totalDegree ≤ p) :
    q = ∑ a ∈ (expos D p).filter fun a => (a.sum fun _ e => e) ≤ p, C (coeff a q) * monomial a 1 := by
  have h1 : q.support ⊆ (expos D p).filter fun a => (a.sum fun _ e => e) ≤ p := fun a ha =>
    Finset.mem_filter.2 ⟨mem_expos q hq ha, (le_totalDegree ha).trans hq⟩
  have h2 : ∀ a, C (coeff a q) * monomial a (1 : ℝ) = monomial a (coeff a q) := fun a => by rw [C_mul_monomial, mul_one]
  simp only [h2]
  rw [← Finset.sum_subset h1]
  · exact q.as_sum
  · intro a _ ha
    rw [notMem_support_iff.1 ha, map_zero]

lemma degree_bind_one {D E : Nat} (g : Fin D → Poly E ℝ) (hg : ∀ i, (g i).totalDegree ≤ 1) (q : Poly D ℝ) :
    (bind₁ g q).totalDegree ≤ q.totalDegree := totalDegree_bind _ hg q

/-- Fields whose coefficients change in time, as unknowns that change in time. -/
lemma carry_time (h : ValidMesh S p 1)
    (hcom : ∀ c ∈ S.cells, ∀ q : Poly (n + 1) ℝ, q.totalDegree ≤ p → ∃ a : Nat → ℝ, q = ∑ i ∈ Finset.range c.e.size, C (a i) * c.e.shape i)
    (Q R : ℝ → PField n ι) (hQ : ∀ t, ∀ c ∈ S.cells, ∀ f d, (Q t c.e f d).totalDegree ≤ p)
    (hR : ∀ t, ∀ c ∈ S.cells, ∀ f d, (R t c.e f d).totalDegree ≤ p)
    (hd : ∀ t, ∀ c ∈ S.cells, ∀ f d a, HasDerivAt (fun t => coeff a (Q t c.e f d)) (coeff a (R t c.e f d)) t) :
    ∃ w r : ℝ → State ι ℝ, (∀ t, Carries S (Q t) (w t)) ∧ (∀ t, Carries S (R t) (r t)) ∧
      ∀ t f d i, HasDerivAt (fun t => w t f d i) (r t f d i) t := by
  have hb : ∀ c ∈ S.cells, ∀ a : Fin (n + 1) →₀ ℕ, (a.sum fun _ e => e) ≤ p → ∃ b : Nat → ℝ,
      bind₁ c.e.geom (monomial a 1) = ∑ i ∈ Finset.range c.e.size, C (b i) * c.e.shape i := fun c hc a ha =>
    hcom c hc _ ((degree_bind_one _ (h.geom hc) _).trans ((totalDegree_monomial_le a 1).trans ha))
  classical
  have hb' : ∀ (c : Cell n ι) (a : Fin (n + 1) →₀ ℕ), ∃ b : Nat → ℝ, c ∈ S.cells → (a.sum fun _ e => e) ≤ p →
      bind₁ c.e.geom (monomial a 1) = ∑ i ∈ Finset.range c.e.size, C (b i) * c.e.shape i := by
    intro c a
    by_cases hc : c ∈ S.cells ∧ (a.sum fun _ e => e) ≤ p
    · obtain ⟨b, hb⟩ := hb c hc.1 a hc.2
      exact ⟨b, fun _ _ => hb⟩
    · exact ⟨0, fun h1 h2 => absurd ⟨h1, h2⟩ hc⟩
  choose b hb using hb'
  obtain ⟨A, hA⟩ : ∃ A, A = (expos (n + 1) p).filter fun a => (a.sum fun _ e => e) ≤ p := ⟨_, rfl⟩
  have carr : ∀ (G : ℝ → PField n ι) (_ : ∀ t, ∀ c ∈ S.cells, ∀ f d, (G t c.e f d).totalDegree ≤ p) (w : ℝ → State ι ℝ)
      (_ : ∀ c ∈ S.cells, ∀ i < c.e.size, ∀ t f d, w t f d (c.e.dof i) = ∑ a ∈ A, coeff a (G t c.e f d) * b c a i), ∀ t, Carries S (G t) (w t) := by
    intro G hG w hw t c hc f d
    unfold onElem
    rw [Finset.sum_congr rfl fun i hi => by rw [hw c hc i (Finset.mem_range.1 hi) t f d]]
    conv_rhs => rw [terms (G t c.e f d) (hG t c hc f d), ← hA, map_sum]
    simp only [map_mul, bind₁_C_right]
    rw [Finset.sum_congr (s₁ := A) rfl fun a ha => by rw [hb c a hc (by rw [hA] at ha; exact (Finset.mem_filter.1 ha).2)]]
    simp only [Finset.mul_sum, map_sum, Finset.sum_mul, map_mul]
    rw [Finset.sum_comm]
    exact Finset.sum_congr rfl fun a _ => Finset.sum_congr rfl fun i _ => by ring
  obtain ⟨w, hw⟩ := gather h fun c i t f d => ∑ a ∈ A, coeff a (Q t c.e f d) * b c a i
  obtain ⟨r, hr⟩ := gather h fun c i t f d => ∑ a ∈ A, coeff a (R t c.e f d) * b c a i
  refine ⟨w, r, carr Q hQ w hw, carr R hR r hr, fun t f d j => ?_⟩
  obtain ⟨c, hc, hr'⟩ := List.mem_flatMap.1 (h.dofs_all j)
  obtain ⟨i, hi, rfl⟩ := List.mem_map.1 hr'
  have hi := List.mem_range.1 hi
  rw [hr c hc i hi]
  have : (fun t => w t f d (c.e.dof i)) = fun t => ∑ a ∈ A, coeff a (Q t c.e f d) * b c a i := funext fun t => hw c hc i hi t f d
  rw [this]
  exact HasDerivAt.fun_sum fun a _ => (hd t c hc f d a).mul_const _

end Dgtd.Galerkin
