/-
Discrete integration by parts on straight meshes of segments, triangles, quadrilaterals, tetrahedra and hexahedra.
-/
import Verif.Lemmas.Cube
import Verif.Lemmas.Galerkin
import Verif.Lemmas.GalerkinMass

set_option linter.unusedSectionVars false

namespace Dgtd.Straight
open MvPolynomial Spec Dgtd.Op Dgtd.Op.Spec
open Dgtd.Galerkin (Poly Elem Rule fld flux)

variable {n : Nat} {ι : Type}

/-! ### orders -/

lemma order_mono {D a b : Nat} {sh : Shape} {q : Poly D ℝ} (h : Order sh a q) (hab : a ≤ b) : Order sh b q := by
  cases sh
  · exact le_trans h hab
  · exact fun i => (h i).trans hab

lemma order_C {D : Nat} (sh : Shape) (c : ℝ) : Order sh 0 (C c : Poly D ℝ) := by
  cases sh
  · simp [Order]
  · intro i; simp

lemma order_mul {D a b : Nat} {sh : Shape} {p q : Poly D ℝ} (hp : Order sh a p) (hq : Order sh b q) : Order sh (a + b) (p * q) := by
  cases sh
  · exact Galerkin.degree_mul_le hp hq
  · exact fun i => (degreeOf_mul_le i _ _).trans (add_le_add (hp i) (hq i))

lemma order_sum {D a : Nat} {α : Type} {sh : Shape} {s : Finset α} {f : α → Poly D ℝ} (h : ∀ i ∈ s, Order sh a (f i)) : Order sh a (∑ i ∈ s, f i) := by
  cases sh
  · exact Galerkin.degree_sum_le h
  · exact fun i => (degreeOf_sum_le i _ _).trans (Finset.sup_le fun j hj => h j hj i)

lemma order_neg {D a : Nat} {sh : Shape} {p : Poly D ℝ} (hp : Order sh a p) : Order sh a (-p) := by
  have : -p = C (-1) * p := by simp
  rw [this]
  simpa using order_mul (order_C sh (-1)) hp

lemma order_add {D a : Nat} {sh : Shape} {p q : Poly D ℝ} (hp : Order sh a p) (hq : Order sh a q) : Order sh a (p + q) := by
  cases sh
  · exact Galerkin.degree_add_le hp hq
  · exact fun i => (degreeOf_add_le i _ _).trans (max_le (hp i) (hq i))

lemma order_sub {D a : Nat} {sh : Shape} {p q : Poly D ℝ} (hp : Order sh a p) (hq : Order sh a q) : Order sh a (p - q) := by
  rw [sub_eq_add_neg]
  exact order_add hp (order_neg hq)

lemma degreeOf_pderiv_le {D : Nat} (k i : Fin D) (q : Poly D ℝ) : (pderiv k q).degreeOf i ≤ q.degreeOf i := by
  rw [degreeOf_eq_sup]
  refine Finset.sup_le fun a ha => ?_
  rw [mem_support_iff, coeff_pderiv] at ha
  have : a + Finsupp.single k 1 ∈ q.support := by
    rw [mem_support_iff]; intro h; rw [h] at ha; simp at ha
  have := Finset.le_sup (f := fun m : Fin D →₀ ℕ => m i) this
  rw [degreeOf_eq_sup]
  exact le_trans (by simp) this

lemma degreeOf_pderiv_self {D : Nat} (k : Fin D) (q : Poly D ℝ) : (pderiv k q).degreeOf k ≤ q.degreeOf k - 1 := by
  rw [degreeOf_eq_sup]
  refine Finset.sup_le fun a ha => ?_
  rw [mem_support_iff, coeff_pderiv] at ha
  have : a + Finsupp.single k 1 ∈ q.support := by
    rw [mem_support_iff]; intro h; rw [h] at ha; simp at ha
  have := Finset.le_sup (f := fun m : Fin D →₀ ℕ => m k) this
  rw [← degreeOf_eq_sup] at this
  simp at this
  omega

lemma order_pderiv {D a : Nat} {sh : Shape} {q : Poly D ℝ} (h : Order sh a q) (k : Fin D) : Order sh a (pderiv k q) := by
  cases sh
  · exact (Galerkin.totalDegree_pderiv k q).trans ((Nat.sub_le _ _).trans h)
  · exact fun i => (degreeOf_pderiv_le k i q).trans (h i)

/-- In one variable the two notions of order agree. -/
lemma order_one {D a : Nat} (hD : D < 2) {q : Poly D ℝ} {sh : Shape} (h : Order sh a q) (sh' : Shape) : Order sh' a q := by
  cases sh <;> cases sh'
  · exact h
  · exact fun i => (degreeOf_le_totalDegree q i).trans h
  · refine Finset.sup_le fun m hm => ?_
    rw [Finsupp.sum_fintype _ _ (by simp)]
    match D, hD with
    | 0, _ => simp
    | 1, _ =>
      rw [Fin.sum_univ_one]
      have := h 0
      rw [degreeOf_eq_sup] at this
      exact (Finset.le_sup (f := fun m : Fin 1 →₀ ℕ => m 0) hm).trans this
  · exact h

lemma degreeOf_coord (flip : Bool) (j i : Fin n) : (coord flip j).degreeOf i ≤ if i = j then 1 else 0 := by
  have hX : (X j : Poly n ℝ).degreeOf i ≤ if i = j then 1 else 0 := by rw [degreeOf_X]
  cases flip
  · simpa [coord] using hX
  · simp only [coord, if_true]
    have : (1 - X j : Poly n ℝ) = 1 + C (-1) * X j := by simp [sub_eq_add_neg]
    rw [this]
    refine (degreeOf_add_le i _ _).trans (max_le (by simp) ?_)
    exact (degreeOf_C_mul_le _ i _).trans hX

lemma order_restrict {a : Nat} (s : Side n ι) {q : Poly (n + 1) ℝ} (h : Order s.place.key.shape a q) : Order s.place.key.shape a (s.restrict q) := by
  obtain ⟨e, pl⟩ := s
  cases pl with
  | simplex f t => exact (Galerkin.totalDegree_bind _ (Galerkin.totalDegree_loc f t) q).trans h
  | box k b t f =>
    intro i
    change ((bind₁ (loc (.box k b t f)) q).degreeOf i) ≤ a
    rw [bind₁, aeval_def, eval₂_eq']
    refine (degreeOf_sum_le i _ _).trans (Finset.sup_le fun m hm => ?_)
    rw [algebraMap_eq]
    refine (degreeOf_C_mul_le _ i _).trans ?_
    rw [Fin.prod_univ_succAbove _ k]
    refine (degreeOf_mul_le i _ _).trans ?_
    have h1 : ((loc (.box k b t f) k : Poly n ℝ) ^ m k).degreeOf i ≤ 0 := by
      refine (degreeOf_pow_le i _ _).trans ?_
      simp only [loc, Fin.insertNth_apply_same, degreeOf_C, mul_zero, le_refl]
    have h2 : (∏ j, (loc (.box k b t f) (k.succAbove j) : Poly n ℝ) ^ m (k.succAbove j)).degreeOf i ≤ m (k.succAbove (t.symm i)) := by
      refine (degreeOf_prod_le i _ _).trans ?_
      have hsum : (∑ j, if j = t.symm i then m (k.succAbove j) else 0) = m (k.succAbove (t.symm i)) := by
        rw [Finset.sum_ite_eq']; simp
      rw [← hsum]
      refine Finset.sum_le_sum fun j _ => (degreeOf_pow_le i _ _).trans ?_
      have := degreeOf_coord (f j) (t j) i
      simp only [loc, Fin.insertNth_apply_succAbove]
      by_cases hj : j = t.symm i
      · subst hj
        simp only [Equiv.apply_symm_apply, if_true] at this ⊢
        exact (Nat.mul_le_mul_left _ this).trans (by simp)
      · have hne : i ≠ t j := fun hi => hj (by rw [hi, Equiv.symm_apply_apply])
        rw [if_neg hne] at this
        rw [if_neg hj]
        exact (Nat.mul_le_mul_left _ this).trans (by simp)
    have h3 := Finset.le_sup (f := fun m : Fin (n + 1) →₀ ℕ => m (k.succAbove (t.symm i))) hm
    rw [← degreeOf_eq_sup] at h3
    have h4 : q.degreeOf (k.succAbove (t.symm i)) ≤ a := h _
    have h3 : m (k.succAbove (t.symm i)) ≤ q.degreeOf (k.succAbove (t.symm i)) := h3
    omega

/-! ### integrals -/

/-- Integral, linear in the polynomial. -/
noncomputable def intl (sh : Shape) (D : Nat) : Poly D ℝ →ₗ[ℝ] ℝ :=
  match sh with
  | .simplex => Galerkin.Spec.integral D
  | .box => cube D

lemma intl_eq {D : Nat} (sh : Shape) (q : Poly D ℝ) : intl sh D q = integral sh q := by cases sh <;> rfl

/-- In at most one dimension the two integrals agree. -/
lemma intl_one {D : Nat} (hD : D < 2) (sh sh' : Shape) : intl sh D = intl sh' D := by
  have key : intl .simplex D = intl .box D := by
    refine (basisMonomials (Fin D) ℝ).ext fun a => ?_
    rw [coe_basisMonomials]
    change Galerkin.Spec.integral D (monomial a (1 : ℝ)) = cube D (monomial a (1 : ℝ))
    rw [Galerkin.integral_monomial, cube_moment, one_mul, one_mul, Galerkin.Spec.moment]
    match D, hD with
    | 0, _ => simp
    | 1, _ =>
      rw [Fin.prod_univ_one, Fin.prod_univ_one, Fin.sum_univ_one, Nat.factorial_succ]
      have := Galerkin.fac_ne (K := ℝ) (a 0)
      push_cast
      field_simp
  cases sh <;> cases sh' <;> first | rfl | exact key | exact key.symm

/-- A place for every face. -/
def Key.place : Key n → Place n
  | .simplex f => .simplex f 1
  | .box k b => .box k b 1 fun _ => false

lemma intl_turn (pl : Place n) (q : Poly (n + 1) ℝ) :
    intl pl.key.shape n (bind₁ (loc pl) q) = intl pl.key.shape n (bind₁ (loc pl.key.place) q) := by
  cases pl with
  | simplex f t => exact Galerkin.integral_turn f t 1 q
  | box k b t f => exact cube_turn k b t 1 f _ q

/-- Gauss' theorem. -/
lemma gauss (sh : Shape) (F : Fin (n + 1) → Poly (n + 1) ℝ) : intl sh (n + 1) (∑ k, pderiv k (F k)) =
    ((keys sh n).map fun f => intl f.shape n (bind₁ (loc f.place) (∑ k, C (refNormal f k) * F k))).sum := by
  cases sh with
  | simplex =>
    rw [keys, List.map_cons, List.map_map]
    have := Galerkin.gauss F fun _ => 1
    rw [List.map_cons, List.map_map] at this
    exact this
  | box =>
    change cube (n + 1) _ = _
    rw [map_sum, Finset.sum_congr rfl fun k _ => cube_gauss k 1 1 (fun _ => false) (fun _ => false) (F k)]
    have flat : ∀ (l : List (Fin (n + 1))) (w : Key n → ℝ), ((l.flatMap fun k => [Key.box k true, Key.box k false]).map w).sum =
        (l.map fun k => w (.box k true) + w (.box k false)).sum := by
      intro l w
      induction l with
      | nil => simp
      | cons a l ih => simp [ih, add_assoc]
    rw [keys, flat, ← List.ofFn_eq_map, List.sum_ofFn]
    refine Finset.sum_congr rfl fun k _ => ?_
    have h1 : ∀ b, (∑ j, C (refNormal (.box k b) j) * F j) = C (if b then 1 else -1) * F k := by
      intro b
      rw [Finset.sum_eq_single k]
      · simp [refNormal]
      · intro j _ hj; simp [refNormal, hj]
      · simp
    rw [h1, h1]
    simp only [if_true, C_1, one_mul, Bool.false_eq_true, if_false, C_neg, neg_mul, map_neg]
    exact sub_eq_add_neg _ _

/-! ### elements -/

variable [Fintype ι] [DecidableEq ι]

lemma order_fld {p : Nat} {sh : Shape} (e : Elem n ι ℝ) (h : ∀ i, Order sh p (e.shape i)) (u : ι → ℝ) : Order sh p (fld e u) :=
  order_sum fun i _ => by simpa using order_mul (order_C sh _) (h i)

lemma order_adj_two {D r : Nat} {sh : Shape} (J : Matrix (Fin 2) (Fin 2) (Poly D ℝ)) (H : ∀ a b, Order sh r (J a b)) (k d : Fin 2) :
    Order sh r (J.adjugate k d) := by
  rw [Matrix.adjugate_fin_two]
  fin_cases k <;> fin_cases d
  · exact H _ _
  · exact order_neg (H _ _)
  · exact order_neg (H _ _)
  · exact H _ _

lemma order_adj_three {D r : Nat} {sh : Shape} (J : Matrix (Fin 3) (Fin 3) (Poly D ℝ)) (H : ∀ a b, Order sh r (J a b)) (k d : Fin 3) :
    Order sh (2 * r) (J.adjugate k d) := by
  have HM : ∀ a b c d, Order sh (2 * r) (J a b * J c d) := fun a b c d => by
    rw [two_mul]; exact order_mul (H a b) (H c d)
  have HS : ∀ a b c d a' b' c' d', Order sh (2 * r) (J a b * J c d - J a' b' * J c' d') :=
    fun a b c d a' b' c' d' => order_sub (HM a b c d) (HM a' b' c' d')
  have HA : ∀ a b c d a' b' c' d', Order sh (2 * r) (-(J a b * J c d) + J a' b' * J c' d') :=
    fun a b c d a' b' c' d' => order_add (order_neg (HM a b c d)) (HM a' b' c' d')
  rw [Matrix.adjugate_fin_three]
  fin_cases k <;> fin_cases d
  · exact HS 1 1 2 2 1 2 2 1
  · exact HA 0 1 2 2 0 2 2 1
  · exact HS 0 1 1 2 0 2 1 1
  · exact HA 1 0 2 2 1 2 2 0
  · exact HS 0 0 2 2 0 2 2 0
  · exact HA 0 0 1 2 0 2 1 0
  · exact HS 1 0 2 1 1 1 2 0
  · exact HA 0 0 2 1 0 1 2 0
  · exact HS 0 0 1 1 0 1 1 0

lemma order_adj {r : Nat} {sh : Shape} : ∀ {n : Nat} (_ : n < 3) (e : Elem n ι ℝ) (_ : ∀ d k, Order sh r (e.jac d k)) (k d : Fin (n + 1)),
    Order sh (n * r) (e.adj k d)
  | 0, _, e, _, k, d => by rw [Galerkin.adj_zero, Nat.zero_mul, ← C_1]; exact order_C _ _
  | 1, _, e, h, k, d => by rw [one_mul]; exact order_adj_two _ h k d
  | 2, _, e, h, k, d => order_adj_three _ h k d

lemma volume_order {p : Nat} {sh : Shape} (hn : n < 3) (hp : 1 ≤ p) (e : Elem n ι ℝ) (hg : ∀ d, Order sh 1 (e.geom d)) (hs : ∀ i, Order sh p (e.shape i))
    (d : Fin (n + 1)) (v u : ι → ℝ) : Order sh (volumeOrder sh (n + 1) p) (fld e v * ∑ k, e.adj k d * pderiv k (fld e u)) := by
  cases sh with
  | simplex =>
    have h1 : (fld e v * ∑ k, e.adj k d * pderiv k (fld e u)).totalDegree ≤ p + (n * (1 - 1) + (p - 1)) := by
      refine Galerkin.degree_mul_le (Galerkin.fld_degree _ hs _) (Galerkin.degree_sum_le fun k _ => Galerkin.degree_mul_le (Galerkin.degree_adj hn _ hg _ _) ?_)
      exact (Galerkin.totalDegree_pderiv _ _).trans (Nat.sub_le_sub_right (Galerkin.fld_degree _ hs _) 1)
    refine le_trans h1 ?_
    simp only [volumeOrder]
    omega
  | box =>
    have hj : ∀ d k, Order .box 1 (e.jac d k) := fun d k => order_pderiv (hg d) k
    have h1 := order_mul (order_fld e hs v) (order_sum (s := Finset.univ) (f := fun k => e.adj k d * pderiv k (fld e u)) fun k _ =>
      order_mul (order_adj hn e hj k d) (order_pderiv (order_fld e hs u) k))
    refine order_mono h1 ?_
    simp only [volumeOrder]
    omega

/-- Integral of the flux through a face of the reference element. -/
noncomputable def side (d : Fin (n + 1)) (v u : ι → ℝ) (s : Elem n ι ℝ × Key n) : ℝ :=
  intl s.2.shape n (bind₁ (loc s.2.place) (∑ k, C (refNormal s.2 k) * flux s.1 d v u k))

lemma elem_identity {p : Nat} {sh : Shape} (hn : n < 3) (hp : 1 ≤ p) (e : Elem n ι ℝ) (r : Rule (n + 1) ℝ) (hg : ∀ d, Order sh 1 (e.geom d))
    (hs : ∀ i, Order sh p (e.shape i)) (hq : Exact sh (volumeOrder sh (n + 1) p) r) (d : Fin (n + 1)) (v u : ι → ℝ) :
    (r.map fun q => q.1 * eval q.2 (fld e v * ∑ k, e.adj k d * pderiv k (fld e u))).sum +
      (r.map fun q => q.1 * eval q.2 (fld e u * ∑ k, e.adj k d * pderiv k (fld e v))).sum =
      (((keys sh n).map fun f => (e, f)).map (side d v u)).sum := by
  rw [hq _ (volume_order hn hp e hg hs d v u), hq _ (volume_order hn hp e hg hs d u v), ← intl_eq, ← intl_eq, ← map_add, ← Galerkin.divergence hn, gauss,
    List.map_map]
  rfl

/-! ### normals -/

lemma Side.jac_eq (s : Side n ι) (d : Fin (n + 1)) (c : Fin n) :
    s.jac d c = ∑ j, s.restrict (s.e.jac d j) * pderiv c (loc s.place j) := Galerkin.pderiv_bind _ _ _

lemma refSide_jac (s : Side n ι) (d : Fin (n + 1)) (c : Fin n) : (refSide s).jac d c = pderiv c (loc s.place d) := by
  simp [Side.jac, refSide, Side.restrict]

/-- The normal of a face is the adjugate times the normal of the face of the reference element. -/
lemma normal_eq : ∀ {n : Nat} (_ : n < 3) (s : Side n ι) (d : Fin (n + 1)),
    (normal s).getD d 0 = ∑ k, s.restrict (s.e.adj k d) * (normal (refSide s)).getD k 0
  | 0, _, s, d => by
    have : d = 0 := Fin.ext (by omega)
    subst this
    simp [normal, Galerkin.adj_zero, Side.restrict, refSide]
  | 1, _, s, d => by
    rw [Galerkin.adj_one]
    fin_cases d <;> simp [normal, Fin.sum_univ_two, refSide_jac, Side.jac_eq s] <;> simp [Side.restrict] <;> ring
  | 2, _, s, d => by
    rw [Galerkin.adj_two]
    fin_cases d <;> simp [normal, Fin.sum_univ_three, refSide_jac, Side.jac_eq s] <;> simp [Side.restrict] <;> ring

lemma normal_length : ∀ {n : Nat} (_ : n < 3) (s : Side n ι), (normal s).length = n + 1
  | 0, _, _ => rfl
  | 1, _, _ => rfl
  | 2, _, _ => rfl

/-- Order of the normals: only those of hexahedra are not constant. -/
def normalOrder (sh : Shape) (n : Nat) : Nat := if sh = .box ∧ n = 2 then 2 else 0

lemma order_normal : ∀ {n : Nat} (_ : n < 3) (s : Side n ι) (_ : ∀ d, Order s.place.key.shape 1 (s.e.geom d)) (d : Fin (n + 1)),
    Order s.place.key.shape (normalOrder s.place.key.shape n) ((normal s).getD d 0)
  | 0, _, s, _, d => by
    have : ∃ c : ℝ, (normal s).getD d 0 = C c := ⟨_, eq_C_of_isEmpty _⟩
    obtain ⟨c, hc⟩ := this
    rw [hc]
    exact order_mono (order_C _ c) (Nat.zero_le _)
  | 1, _, s, hg, d => by
    have hj : ∀ d c, Order s.place.key.shape 0 (s.jac d c) := by
      intro d c
      refine order_one (by omega) (sh := .box) (fun i => ?_) _
      have hc : i = c := Subsingleton.elim _ _
      subst hc
      refine (degreeOf_pderiv_self i _).trans ?_
      have := order_one (by omega) (order_restrict s (hg d)) .box i
      omega
    refine order_mono (a := 0) ?_ (Nat.zero_le _)
    fin_cases d
    · exact hj _ _
    · exact order_neg (hj _ _)
  | 2, _, s, hg, d => by
    have hj : ∀ r, (∀ d c, Order s.place.key.shape r (s.jac d c)) → Order s.place.key.shape (r + r) ((normal s).getD d 0) := by
      intro r hj
      fin_cases d <;> exact order_sub (order_mul (hj _ _) (hj _ _)) (order_mul (hj _ _) (hj _ _))
    cases hsh : s.place.key.shape with
    | simplex =>
      rw [hsh] at hj
      refine order_mono (hj 0 fun d c => ?_) (Nat.zero_le _)
      have := order_restrict s (hg d)
      rw [hsh] at this
      refine (Galerkin.totalDegree_pderiv c _).trans ?_
      have this : (s.restrict (s.e.geom d)).totalDegree ≤ 1 := this
      omega
    | box =>
      rw [hsh] at hj
      refine hj 1 fun d c => ?_
      have := order_restrict s (hg d)
      rw [hsh] at this
      exact order_pderiv this c

lemma Spec.Outward.getD {s : Side n ι} (h : Outward s) (k : Fin (n + 1)) : (normal (refSide s)).getD k 0 = C (refNormal s.place.key k) := by
  rw [h, List.getD_eq_getElem?_getD, List.getElem?_map, List.getElem?_eq_getElem (by rw [List.length_finRange]; exact k.2)]
  simp

/-- The normal seen from the second side. -/
lemma meet_normal : ∀ {n : Nat} (_ : n < 3) {s s2 : Side n ι} (_ : Outward s) (_ : Meet s s2) (d : Fin (n + 1)),
    (normal s).getD d 0 = -∑ k, s2.restrict (s2.e.adj k d) * C (refNormal s2.place.key k)
  | 0, hn, s, s2, h1, h2, d => by
    rw [normal_eq hn, Finset.sum_congr rfl fun k _ => by rw [h1.getD]]
    simp only [Galerkin.adj_zero, Side.restrict, map_one, one_mul, Nat.reduceAdd, Finset.univ_unique, Finset.sum_singleton]
    have h2 : ∀ k, refNormal s.place.key k = -refNormal s2.place.key k := h2
    rw [h2, map_neg]
  | n + 1, hn, s, s2, h1, h2, d => by
    obtain ⟨hg, ho, -⟩ := h2
    have hj : ∀ d c, s.jac d c = s2.jac d c := fun d c => by unfold Side.jac; rw [hg]
    have hN : normal s = normal s2 := by
      match n, hn with
      | 0, _ => simp only [normal, hj]
      | 1, _ => simp only [normal, hj]
    rw [hN, normal_eq hn, ho, ← Finset.sum_neg_distrib]
    refine Finset.sum_congr rfl fun k _ => ?_
    rw [List.getD_eq_getElem?_getD, List.getElem?_map, List.getElem?_eq_getElem (by rw [List.length_finRange]; exact k.2)]
    simp

lemma meet_shape : ∀ {n : Nat} {s s2 : Side n ι} (_ : Meet s s2), n < 2 ∨ s.place.key.shape = s2.place.key.shape
  | 0, _, _, _ => .inl (by omega)
  | n + 1, s, s2, h => by
    by_cases hn : 2 ≤ n + 1
    · exact .inr (h.2.2 hn)
    · exact .inl (by omega)

/-! ### faces -/

lemma side_turn (d : Fin (n + 1)) (v u : ι → ℝ) (s : Side n ι) : side d v u (s.e, s.place.key) = intl s.place.key.shape n
    ((∑ k, s.restrict (s.e.adj k d) * C (refNormal s.place.key k)) * (s.restrict (fld s.e v) * s.restrict (fld s.e u))) := by
  unfold side
  rw [← intl_turn]
  congr 1
  simp only [map_sum, map_mul, bind₁_C_right, flux, Side.restrict, Finset.sum_mul]
  refine Finset.sum_congr rfl fun k _ => by ring

lemma tr1_eq (f : MeshFace n ι) (q : ℝ × (Fin n → ℝ)) (p : Pt ℝ) (hp : ∀ i, p.sh1 i = eval q.2 (f.s1.restrict (f.s1.e.shape i))) (u : ι → ℝ) :
    tr1 f.toFace p u = eval q.2 (f.s1.restrict (fld f.s1.e u)) := by
  unfold tr1 fld
  simp only [Side.restrict, map_sum, map_mul, bind₁_C_right, eval_C]
  refine Finset.sum_congr rfl fun i hi => ?_
  have hi : i < f.s1.e.size := Finset.mem_range.1 hi
  rw [hp]
  unfold MeshFace.toFace
  cases f.s2 <;> simp [hi, Side.restrict, mul_comm]

lemma tr2_eq (f : MeshFace n ι) (s : Side n ι) (hs : f.s2 = some s) (q : ℝ × (Fin n → ℝ)) (p : Pt ℝ)
    (hp : ∀ i, p.sh2 i = eval q.2 (s.restrict (s.e.shape i))) (u : ι → ℝ) : tr2 f.toFace p u = eval q.2 (s.restrict (fld s.e u)) := by
  unfold tr2 fld
  have h2 : f.toFace.ndof2 = s.e.size := by simp [MeshFace.toFace, hs]
  have hd : ∀ i, f.toFace.dofs (f.toFace.ndof1 + i) = s.e.dof i := by intro i; simp [MeshFace.toFace, hs]
  rw [h2]
  simp only [Side.restrict, map_sum, map_mul, bind₁_C_right, eval_C, hd, hp]
  refine Finset.sum_congr rfl fun i hi => by ring

lemma normal_term (f : MeshFace n ι) (q : ℝ × (Fin n → ℝ)) (d : Dir) (h : d.val < n + 1) :
    normalTerm ((normal f.s1).map fun c => eval q.2 c) d = eval q.2 ((normal f.s1).getD (⟨d.val, h⟩ : Fin (n + 1)) 0) := by
  unfold normalTerm
  rw [List.getD_eq_getElem?_getD, List.getElem?_map]
  cases (normal f.s1)[d.val]? <;> simp

/-- What the integrators read at a quadrature point. -/
noncomputable def point (f : MeshFace n ι) (q : ℝ × (Fin n → ℝ)) : Pt ℝ :=
  { w := q.1
    W := √(((normal f.s1).map fun c => eval q.2 c ^ 2).sum)
    nor := (normal f.s1).map fun c => eval q.2 c
    sh1 := fun i => eval q.2 (f.s1.restrict (f.s1.e.shape i))
    sh2 := fun i => match f.s2 with
      | some s => eval q.2 (s.restrict (s.e.shape i))
      | none => 0 }

/-- The quadratures of the faces have the order the integrals need. -/
lemma order_le (hn : n < 3) (p : Nat) (f : MeshFace n ι) (h2 : ∀ s ∈ f.s2, Meet f.s1 s) :
    normalOrder f.s1.place.key.shape n + (p + p) ≤ f.order p := by
  unfold MeshFace.order normalOrder
  have hw : ∀ sh : Shape, Galerkin.orderW sh.space (n + 1) 1 = if sh = .box then n else 0 := by
    intro sh
    cases sh <;> simp [Shape.space, Galerkin.orderW]
  simp only [hw]
  cases hs : f.s2 with
  | none =>
    cases f.s1.place.key.shape <;> simp [Galerkin.faceOrder, Shape.space] <;> (try split) <;> omega
  | some s =>
    have hm := meet_shape (h2 s (by rw [hs]; rfl))
    cases h1 : f.s1.place.key.shape <;> cases h3 : s.place.key.shape <;> simp [Galerkin.faceOrder, Shape.space] <;> rw [h1, h3] at hm <;>
      (try split) <;> first | omega | (rcases hm with hm | hm <;> first | omega | cases hm)

/-- What the quadrature of a face computes. -/
lemma face_identity {p : Nat} (hn : n < 3) (f : MeshFace n ι) (h1 : Outward f.s1) (h2 : ∀ s ∈ f.s2, Meet f.s1 s)
    (g1 : ∀ d, Order f.s1.place.key.shape 1 (f.s1.e.geom d)) (p1 : ∀ i, Order f.s1.place.key.shape p (f.s1.e.shape i))
    (p2 : ∀ s ∈ f.s2, ∀ i, Order s.place.key.shape p (s.e.shape i)) (hq : Exact f.s1.place.key.shape (f.order p) f.rule)
    (d : Dir) (h : d.val < n + 1) (v u : ι → ℝ) : faceBoundary f.toFace d v u = ((sides f).map (side ⟨d.val, h⟩ v u)).sum := by
  have hN := normal_eq hn f.s1 ⟨d.val, h⟩
  rw [Finset.sum_congr rfl fun k _ => by rw [h1.getD]] at hN
  have hD := order_normal hn f.s1 g1 ⟨d.val, h⟩
  have hO := order_le hn p f h2
  have hdeg : ∀ (s : Side n ι), (∀ i, Order s.place.key.shape p (s.e.shape i)) → (n < 2 ∨ f.s1.place.key.shape = s.place.key.shape) →
      Order f.s1.place.key.shape (f.order p)
        ((normal f.s1).getD (⟨d.val, h⟩ : Fin (n + 1)) 0 * (s.restrict (fld s.e v) * s.restrict (fld s.e u))) := by
    intro s hs hsh
    have hr : ∀ w, Order f.s1.place.key.shape p (s.restrict (fld s.e w)) := by
      intro w
      have := order_restrict s (order_fld s.e hs w)
      rcases hsh with hsh | hsh
      · exact order_one hsh this _
      · rw [hsh]; exact this
    exact order_mono (order_mul hD (order_mul (hr v) (hr u))) hO
  have e1 := hq _ (hdeg f.s1 p1 (.inr rfl))
  rw [hN, ← intl_eq] at e1
  rw [sides, List.map_cons, List.sum_cons, side_turn, ← e1, ← hN]
  unfold faceBoundary
  cases hs : f.s2 with
  | none =>
    simp only [List.map_nil, List.sum_nil, add_zero]
    have : f.toFace.ndof2 = 0 := by simp [MeshFace.toFace, hs]
    simp only [tr2, this, Finset.range_zero, Finset.sum_empty, mul_zero, sub_zero]
    change ((f.rule.map (point f)).map _).sum = _
    rw [List.map_map]
    congr 1
    refine List.map_congr_left fun q _ => ?_
    have t1 := tr1_eq f q (point f q) fun _ => rfl
    have tn := normal_term f q d h
    change q.1 * normalTerm ((normal f.s1).map fun c => eval q.2 c) d * (tr1 f.toFace (point f q) v * tr1 f.toFace (point f q) u) = _
    rw [t1, t1, tn, map_mul, map_mul]
    ring
  | some s =>
    have hs' : s ∈ f.s2 := by rw [hs]; rfl
    have hsh := meet_shape (h2 s hs')
    have e2 := hq _ (hdeg s (p2 s hs') hsh)
    have e3 : side ⟨d.val, h⟩ v u (s.e, s.place.key) = -(f.rule.map fun q => q.1 * eval q.2 ((normal f.s1).getD (⟨d.val, h⟩ : Fin (n + 1)) 0 *
        (s.restrict (fld s.e v) * s.restrict (fld s.e u)))).sum := by
      have hi : intl f.s1.place.key.shape n = intl s.place.key.shape n := by
        rcases hsh with hsh | hsh
        · exact intl_one hsh _ _
        · rw [hsh]
      rw [e2, side_turn, meet_normal hn h1 (h2 s hs') ⟨d.val, h⟩, ← intl_eq, hi, ← map_neg]
      congr 1
      ring
    simp only [List.map_cons, List.map_nil, List.sum_cons, List.sum_nil, add_zero]
    rw [e3, ← sub_eq_add_neg, Galerkin.list_sum_sub]
    change ((f.rule.map (point f)).map _).sum = _
    rw [List.map_map]
    congr 1
    refine List.map_congr_left fun q _ => ?_
    have t1 := tr1_eq f q (point f q) fun _ => rfl
    have t2 := tr2_eq f s hs q (point f q) fun _ => by simp [point, hs]
    have tn := normal_term f q d h
    change q.1 * normalTerm ((normal f.s1).map fun c => eval q.2 c) d * (tr1 f.toFace (point f q) v * tr1 f.toFace (point f q) u -
      tr2 f.toFace (point f q) v * tr2 f.toFace (point f q) u) = _
    rw [t1, t1, t2, t2, tn, map_mul, map_mul, map_mul, map_mul]
    ring

lemma key_shape {sh : Shape} {k : Key n} (h : k ∈ keys sh n) : k.shape = sh := by
  cases sh
  · simp only [keys, List.mem_cons, List.mem_map] at h
    rcases h with rfl | ⟨_, _, rfl⟩ <;> rfl
  · simp only [keys, List.mem_flatMap, List.mem_cons, List.not_mem_nil, or_false] at h
    rcases h with ⟨_, _, rfl | rfl⟩ <;> rfl

/-- A side belongs to an element of its shape. -/
lemma side_cell {S : Setup n ι} {p : Nat} (h : ValidMesh S p) {f : MeshFace n ι} (hf : f ∈ faces S) {x : Elem n ι ℝ × Key n} (hx : x ∈ sides f) :
    ∃ c ∈ S.cells, x.1 = c.e ∧ x.2.shape = c.shape := by
  have := h.cover.subset (List.mem_flatMap.2 ⟨f, hf, hx⟩)
  obtain ⟨c, hc, hx⟩ := List.mem_flatMap.1 this
  obtain ⟨k, hk, rfl⟩ := List.mem_map.1 hx
  exact ⟨c, hc, rfl, key_shape hk⟩

/-- The mesh's part of the problem satisfies discrete integration by parts. -/
theorem sbp {S : Setup n ι} {p : Nat} (h : ValidMesh S p) (P : Prob ι ℝ) (hd : P.dim = n + 1)
    (hf : allFaces P = (faces S).map MeshFace.toFace) (hD : P.D = Galerkin.derivMatrix (S.cells.map fun c => (c.e, c.vol))) : SBP P := by
  intro d hdd v u
  have hdn : d.val < n + 1 := by rw [← hd]; exact hdd
  rw [hf, List.map_map]
  have hfi : (faces S).map ((fun f => faceBoundary f d v u) ∘ MeshFace.toFace) = (faces S).map fun f => ((sides f).map (side ⟨d.val, hdn⟩ v u)).sum := by
    refine List.map_congr_left fun f hf => ?_
    obtain ⟨c1, hc1, hx1, hk1⟩ := side_cell h hf (x := (f.s1.e, f.s1.place.key)) (by simp [sides])
    have hx1 : f.s1.e = c1.e := hx1
    have hk1 : f.s1.place.key.shape = c1.shape := hk1
    refine face_identity (p := p) h.dim f (h.one f hf) (h.two f hf) (by rw [hx1, hk1]; exact h.geom c1 hc1) (by rw [hx1, hk1]; exact h.shape c1 hc1)
      (fun s hs => ?_) (h.surface f hf) d hdn v u
    have hs' : f.s2 = some s := hs
    obtain ⟨c2, hc2, hx2, hk2⟩ := side_cell h hf (x := (s.e, s.place.key)) (by simp [sides, hs'])
    have hx2 : s.e = c2.e := hx2
    have hk2 : s.place.key.shape = c2.shape := hk2
    rw [hx2, hk2]
    exact h.shape c2 hc2
  rw [hfi]
  have flat : ∀ {α β : Type} (l : List α) (g : α → List β) (w : β → ℝ), (l.map fun a => ((g a).map w).sum).sum = ((l.flatMap g).map w).sum := by
    intro α β l g w
    induction l with
    | nil => simp
    | cons a l ih => simp [ih]
  rw [flat, (h.cover.map _).sum_eq, ← flat, hD, Galerkin.deriv_form _ _ hdn, Galerkin.deriv_form _ _ hdn, List.map_map, List.map_map, Galerkin.list_sum_add]
  congr 1
  refine List.map_congr_left fun c hc => ?_
  exact elem_identity h.dim h.order c.e c.vol (h.geom c hc) (h.shape c hc) (h.volume c hc) _ v u

end Dgtd.Straight
