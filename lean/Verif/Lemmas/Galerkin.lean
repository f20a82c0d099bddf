/-
Discrete integration by parts on meshes of simplices.
-/
import Verif.Lemmas.Simplex
import Mathlib.Algebra.CharZero.Defs

set_option linter.unusedSectionVars false

namespace Dgtd.Galerkin
open MvPolynomial Spec Dgtd.Op Dgtd.Op.Spec

variable {n : Nat} {ι K : Type} [Fintype ι] [DecidableEq ι] [Field K]

/-- The function on an element whose degrees of freedom are `u`. -/
noncomputable def fld (e : Elem n ι K) (u : ι → K) : Poly (n + 1) K := ∑ i ∈ Finset.range e.size, C (u (e.dof i)) * e.shape i

lemma fld_degree {p : Nat} (e : Elem n ι K) (h : ∀ i, (e.shape i).totalDegree ≤ p) (u : ι → K) : (fld e u).totalDegree ≤ p :=
  degree_sum_le fun i _ => by simpa using degree_mul_le (a := 0) (by simp) (h i)

lemma eval_fld (e : Elem n ι K) (u : ι → K) (x : Fin (n + 1) → K) :
    eval x (fld e u) = ∑ i ∈ Finset.range e.size, eval x (e.shape i) * u (e.dof i) := by
  simp [fld, mul_comm]

lemma eval_pderiv_fld (e : Elem n ι K) (u : ι → K) (x : Fin (n + 1) → K) (k : Fin (n + 1)) :
    eval x (pderiv k (fld e u)) = ∑ i ∈ Finset.range e.size, eval x (pderiv k (e.shape i)) * u (e.dof i) := by
  simp [fld, mul_comm, pderiv_mul]

/-! ### derivative matrices -/

lemma scatter_one (N : Nat) (dof : Nat → ι) (A : Nat → Nat → K) (v u : ι → K) :
    v ⬝ᵥ (Matrix.mulVec (fun r c => ∑ i ∈ Finset.range N, ∑ j ∈ Finset.range N, if dof i = r ∧ dof j = c then A i j else 0) u) =
      ∑ i ∈ Finset.range N, ∑ j ∈ Finset.range N, v (dof i) * A i j * u (dof j) := by
  simp only [dotProduct, Matrix.mulVec, Finset.sum_mul, Finset.mul_sum]
  have : ∀ r, (∑ c, ∑ i ∈ Finset.range N, ∑ j ∈ Finset.range N, v r * ((if dof i = r ∧ dof j = c then A i j else 0) * u c)) =
      ∑ i ∈ Finset.range N, ∑ j ∈ Finset.range N, if dof i = r then v r * A i j * u (dof j) else 0 := by
    intro r
    rw [Finset.sum_comm]
    refine Finset.sum_congr rfl fun i _ => ?_
    rw [Finset.sum_comm]
    refine Finset.sum_congr rfl fun j _ => ?_
    rw [Finset.sum_eq_single (dof j)]
    · by_cases h : dof i = r <;> simp [h, mul_assoc]
    · intro c _ hc; simp [hc.symm]
    · simp
  rw [Finset.sum_congr rfl fun r _ => this r, Finset.sum_comm]
  refine Finset.sum_congr rfl fun i _ => ?_
  rw [Finset.sum_comm]
  refine Finset.sum_congr rfl fun j _ => ?_
  rw [Finset.sum_ite_eq]
  simp

lemma list_bilinear {α : Type} (l : List α) (N : Nat) (f : α → Nat → Nat → K) (a b : Nat → K) :
    (∑ i ∈ Finset.range N, ∑ j ∈ Finset.range N, a i * (l.map fun q => f q i j).sum * b j) =
      (l.map fun q => ∑ i ∈ Finset.range N, ∑ j ∈ Finset.range N, a i * f q i j * b j).sum := by
  induction l with
  | nil => simp
  | cons q l ih =>
    simp only [List.map_cons, List.sum_cons, mul_add, add_mul, Finset.sum_add_distrib]
    rw [ih]

lemma deriv_form (els : List (Elem n ι K × Rule (n + 1) K)) (d : Dir) (h : d.val < n + 1) (v u : ι → K) :
    v ⬝ᵥ (derivMatrix els d).mulVec u = (els.map fun e => (e.2.map fun q =>
      q.1 * eval q.2 (fld e.1 v * ∑ k, e.1.adj k ⟨d.val, h⟩ * pderiv k (fld e.1 u))).sum).sum := by
  induction els with
  | nil =>
    have : derivMatrix ([] : List (Elem n ι K × Rule (n + 1) K)) d = 0 := by
      funext r c; simp [derivMatrix]
    rw [this]; simp
  | cons e els ih =>
    have : derivMatrix (e :: els) d = (show Matrix ι ι K from fun r c => ∑ i ∈ Finset.range e.1.size, ∑ j ∈ Finset.range e.1.size,
        if e.1.dof i = r ∧ e.1.dof j = c then derivElem e.2 e.1 ⟨d.val, h⟩ i j else 0) + derivMatrix els d := by
      funext r c
      simp only [derivMatrix, h, dif_pos, List.map_cons, List.sum_cons, Matrix.add_apply]
      congr 1
      simp only [derivMatrix, h, dif_pos]
    rw [this, Matrix.add_mulVec, dotProduct_add, ih, List.map_cons, List.sum_cons, scatter_one]
    congr 1
    unfold derivElem
    rw [list_bilinear e.2 e.1.size (fun q i j => q.1 * eval q.2 (e.1.shape i) *
      ∑ k, eval q.2 (e.1.adj k ⟨d.val, h⟩) * eval q.2 (pderiv k (e.1.shape j))) (fun i => v (e.1.dof i)) (fun j => u (e.1.dof j))]
    congr 1
    refine List.map_congr_left fun q _ => ?_
    simp only [map_mul, map_sum, eval_fld, eval_pderiv_fld]
    have : (∑ k, eval q.2 (e.1.adj k ⟨d.val, h⟩) * ∑ j ∈ Finset.range e.1.size, eval q.2 (pderiv k (e.1.shape j)) * u (e.1.dof j)) =
        ∑ j ∈ Finset.range e.1.size, (∑ k, eval q.2 (e.1.adj k ⟨d.val, h⟩) * eval q.2 (pderiv k (e.1.shape j))) * u (e.1.dof j) := by
      simp only [Finset.mul_sum, Finset.sum_mul]
      rw [Finset.sum_comm]
      refine Finset.sum_congr rfl fun j _ => Finset.sum_congr rfl fun k _ => by ring
    rw [this, Finset.sum_mul_sum, Finset.mul_sum]
    refine Finset.sum_congr rfl fun i _ => ?_
    rw [Finset.mul_sum]
    refine Finset.sum_congr rfl fun j _ => by ring

lemma list_sum_add {α : Type} (l : List α) (f g : α → K) : (l.map f).sum + (l.map g).sum = (l.map fun a => f a + g a).sum := by
  induction l with
  | nil => simp
  | cons a l ih => simp only [List.map_cons, List.sum_cons, ← ih]; ring

lemma list_sum_sub {α : Type} (l : List α) (f g : α → K) : (l.map f).sum - (l.map g).sum = (l.map fun a => f a - g a).sum := by
  induction l with
  | nil => simp
  | cons a l ih => simp only [List.map_cons, List.sum_cons, ← ih]; ring

/-- Flux through the faces of the reference element. -/
noncomputable def flux (e : Elem n ι K) (d : Fin (n + 1)) (v u : ι → K) (k : Fin (n + 1)) : Poly (n + 1) K := e.adj k d * (fld e v * fld e u)

lemma divergence (hn : n < 3) (e : Elem n ι K) (d : Fin (n + 1)) (v u : ι → K) :
    (∑ k, pderiv k (flux e d v u k)) = fld e v * (∑ k, e.adj k d * pderiv k (fld e u)) + fld e u * ∑ k, e.adj k d * pderiv k (fld e v) := by
  have : ∀ k, pderiv k (flux e d v u k) = pderiv k (e.adj k d) * (fld e v * fld e u) +
      (fld e v * (e.adj k d * pderiv k (fld e u)) + fld e u * (e.adj k d * pderiv k (fld e v))) := by
    intro k
    simp only [flux, pderiv_mul]
    ring
  simp only [this, Finset.sum_add_distrib, ← Finset.mul_sum, ← Finset.sum_mul, piola hn, zero_mul, zero_add]

variable [CharZero K]

/-- Integral of the flux through a face of the reference element. -/
noncomputable def side (d : Fin (n + 1)) (v u : ι → K) (s : Elem n ι K × Option (Fin (n + 1))) : K :=
  integral n (bind₁ (loc s.2 1) (∑ k, C (refNormal s.2 k) * flux s.1 d v u k))

lemma elem_identity {p m : Nat} (hn : n < 3) (hp : 1 ≤ p) (hm : 1 ≤ m) (e : Elem n ι K × Rule (n + 1) K) (hg : ∀ d, (e.1.geom d).totalDegree ≤ m)
    (hs : ∀ i, (e.1.shape i).totalDegree ≤ p) (hq : Exact (volumeOrder (n + 1) p m) e.2) (d : Fin (n + 1)) (v u : ι → K) :
    (e.2.map fun q => q.1 * eval q.2 (fld e.1 v * ∑ k, e.1.adj k d * pderiv k (fld e.1 u))).sum +
      (e.2.map fun q => q.1 * eval q.2 (fld e.1 u * ∑ k, e.1.adj k d * pderiv k (fld e.1 v))).sum =
      (((none :: (List.finRange (n + 1)).map some).map fun f => (e.1, f)).map (side d v u)).sum := by
  have hdeg : ∀ a b : ι → K, (fld e.1 a * ∑ k, e.1.adj k d * pderiv k (fld e.1 b)).totalDegree ≤ volumeOrder (n + 1) p m := by
    intro a b
    have h1 : (fld e.1 a * ∑ k, e.1.adj k d * pderiv k (fld e.1 b)).totalDegree ≤ p + (n * (m - 1) + (p - 1)) := by
      refine degree_mul_le (fld_degree _ hs _) (degree_sum_le fun k _ => degree_mul_le (degree_adj hn _ hg _ _) ?_)
      exact (totalDegree_pderiv _ _).trans (Nat.sub_le_sub_right (fld_degree _ hs _) 1)
    refine h1.trans ?_
    unfold volumeOrder
    split
    · rw [Nat.add_sub_cancel]; omega
    · have : m - 1 = 0 := by omega
      rw [this]; omega
  rw [hq _ (hdeg v u), hq _ (hdeg u v), ← map_add, ← divergence hn, gauss _ fun _ => 1, List.map_map]
  rfl

/-! ### faces -/

lemma Spec.Outward.getD {s : Side n ι K} (h : Outward s) (k : Fin (n + 1)) : (normal (refSide s)).getD k 0 = C (refNormal s.face k) := by
  rw [h, List.getD_eq_getElem?_getD, List.getElem?_map, List.getElem?_eq_getElem (by rw [List.length_finRange]; exact k.2)]
  simp

/-- The normal seen from the second side. -/
lemma meet_normal : ∀ {n : Nat} (_ : n < 3) {s s2 : Side n ι K} (_ : Outward s) (_ : Meet s s2) (d : Fin (n + 1)),
    (normal s).getD d 0 = -∑ k, s2.restrict (s2.e.adj k d) * C (refNormal s2.face k)
  | 0, hn, s, s2, h1, h2, d => by
    rw [normal_eq hn]
    rw [Finset.sum_congr rfl fun k _ => by rw [h1.getD]]
    simp only [adj_zero, Side.restrict, map_one, one_mul, Nat.reduceAdd, Finset.univ_unique, Finset.sum_singleton]
    have h2 : s.face ≠ s2.face := h2
    rw [← map_neg]
    congr 1
    unfold refNormal
    have hz : ∀ a : Fin (0 + 1), a = default := fun a => Fin.ext (by omega)
    rcases hs : s.face with _ | a <;> rcases ht : s2.face with _ | b
    · rw [hs, ht] at h2; exact absurd rfl h2
    · simp [hz b]
    · simp [hz a]
    · rw [hs, ht, hz a, hz b] at h2; exact absurd rfl h2
  | n + 1, hn, s, s2, h1, h2, d => by
    obtain ⟨hg, ho⟩ := h2
    have hj : ∀ d c, s.jac d c = s2.jac d c := fun d c => by unfold Side.jac; rw [hg]
    have hN : normal s = normal s2 := by
      match n, hn with
      | 0, _ => simp only [normal, hj]
      | 1, _ => simp only [normal, hj]
    rw [hN, normal_eq hn, ho, ← Finset.sum_neg_distrib]
    refine Finset.sum_congr rfl fun k _ => ?_
    rw [List.getD_eq_getElem?_getD, List.getElem?_map, List.getElem?_eq_getElem (by rw [List.length_finRange]; exact k.2)]
    simp

lemma side_turn (d : Fin (n + 1)) (v u : ι → K) (s : Side n ι K) : side d v u (s.e, s.face) =
    integral n ((∑ k, s.restrict (s.e.adj k d) * C (refNormal s.face k)) * (s.restrict (fld s.e v) * s.restrict (fld s.e u))) := by
  unfold side
  rw [integral_turn _ 1 s.turn]
  congr 1
  simp only [map_sum, map_mul, bind₁_C_right, flux, Side.restrict, Finset.sum_mul]
  refine Finset.sum_congr rfl fun k _ => by ring

lemma tr1_eq (f : FemFace n ι K) (q : K × (Fin n → K)) (p : Pt K) (hp : ∀ i, p.sh1 i = eval q.2 (f.s1.restrict (f.s1.e.shape i))) (u : ι → K) :
    tr1 f.toFace p u = eval q.2 (f.s1.restrict (fld f.s1.e u)) := by
  unfold tr1 fld
  simp only [Side.restrict, map_sum, map_mul, bind₁_C_right, eval_C]
  refine Finset.sum_congr rfl fun i hi => ?_
  have hi : i < f.s1.e.size := Finset.mem_range.1 hi
  rw [hp]
  unfold FemFace.toFace
  cases f.s2 <;> simp [hi, Side.restrict, mul_comm]

lemma tr2_eq (f : FemFace n ι K) (s : Side n ι K) (hs : f.s2 = some s) (q : K × (Fin n → K)) (p : Pt K)
    (hp : ∀ i, p.sh2 i = eval q.2 (s.restrict (s.e.shape i))) (u : ι → K) : tr2 f.toFace p u = eval q.2 (s.restrict (fld s.e u)) := by
  unfold tr2 fld
  have h2 : f.toFace.ndof2 = s.e.size := by simp [FemFace.toFace, hs]
  have hd : ∀ i, f.toFace.dofs (f.toFace.ndof1 + i) = s.e.dof i := by intro i; simp [FemFace.toFace, hs]
  rw [h2]
  simp only [Side.restrict, map_sum, map_mul, bind₁_C_right, eval_C, hd, hp]
  refine Finset.sum_congr rfl fun i hi => by ring

lemma degree_restrict {a : Nat} (s : Side n ι K) {q : Poly (n + 1) K} (h : q.totalDegree ≤ a) : (s.restrict q).totalDegree ≤ a :=
  (s.totalDegree_restrict q).trans h

lemma order_le {p m : Nat} {α : Type} (o : Option α) :
    n * (m - 1) + (p + p) ≤ faceOrder .Pk (n + 1) p (orderW .Pk (n + 1) m) (o.map fun _ => (p, orderW .Pk (n + 1) m)) := by
  have h2 : n * (m - 1) ≤ orderW .Pk (n + 1) m := by
    unfold orderW
    rw [mul_comm]
    exact Nat.mul_le_mul_left _ (Nat.le_succ n)
  unfold faceOrder
  cases o <;> simp only [if_true, Option.map_none, Option.map_some, min_self, max_self] <;> split <;>
    first | omega | exact le_trans (by omega) (Nat.le_add_right _ _)

lemma normal_term (f : FemFace n ι K) (q : K × (Fin n → K)) (d : Dir) (h : d.val < n + 1) :
    normalTerm ((normal f.s1).map fun c => eval q.2 c) d = eval q.2 ((normal f.s1).getD (⟨d.val, h⟩ : Fin (n + 1)) 0) := by
  unfold normalTerm
  rw [List.getD_eq_getElem?_getD, List.getElem?_map]
  cases (normal f.s1)[d.val]? <;> simp

/-- What the integrators read at a quadrature point. -/
noncomputable def point (f : FemFace n ι K) (q : K × (Fin n → K)) : Pt K :=
  { w := q.1
    W := f.W q.2
    nor := (normal f.s1).map fun c => eval q.2 c
    sh1 := fun i => eval q.2 (f.s1.restrict (f.s1.e.shape i))
    sh2 := fun i => match f.s2 with
      | some s => eval q.2 (s.restrict (s.e.shape i))
      | none => 0 }

/-- What the quadrature of a face computes. -/
lemma face_identity {p m : Nat} (hn : n < 3) (f : FemFace n ι K) (h1 : Outward f.s1) (h2 : ∀ s ∈ f.s2, Meet f.s1 s)
    (g1 : ∀ d, (f.s1.e.geom d).totalDegree ≤ m) (p1 : ∀ i, (f.s1.e.shape i).totalDegree ≤ p)
    (p2 : ∀ s ∈ f.s2, ∀ i, (s.e.shape i).totalDegree ≤ p)
    (hq : Exact (faceOrder .Pk (n + 1) p (orderW .Pk (n + 1) m) (f.s2.map fun _ => (p, orderW .Pk (n + 1) m))) f.rule)
    (d : Dir) (h : d.val < n + 1) (v u : ι → K) :
    faceBoundary f.toFace d v u = ((Spec.sides f).map (side ⟨d.val, h⟩ v u)).sum := by
  have hN := normal_eq hn f.s1 ⟨d.val, h⟩
  rw [Finset.sum_congr rfl fun k _ => by rw [h1.getD]] at hN
  have hD : ((normal f.s1).getD (⟨d.val, h⟩ : Fin (n + 1)) 0).totalDegree ≤ n * (m - 1) := by
    rw [hN]
    exact degree_sum_le fun k _ => by simpa using degree_mul_le (b := 0) (degree_restrict f.s1 (degree_adj hn _ g1 k _)) (by simp)
  have hO := order_le (n := n) (p := p) (m := m) f.s2
  have hdeg : ∀ (s : Side n ι K), (∀ i, (s.e.shape i).totalDegree ≤ p) → ((normal f.s1).getD (⟨d.val, h⟩ : Fin (n + 1)) 0 *
      (s.restrict (fld s.e v) * s.restrict (fld s.e u))).totalDegree ≤
      faceOrder .Pk (n + 1) p (orderW .Pk (n + 1) m) (f.s2.map fun _ => (p, orderW .Pk (n + 1) m)) := fun s hs =>
    (degree_mul_le hD (degree_mul_le (degree_restrict s (fld_degree _ hs v)) (degree_restrict s (fld_degree _ hs u)))).trans hO
  have e1 := hq _ (hdeg f.s1 p1)
  rw [hN] at e1
  rw [Spec.sides, List.map_cons, List.sum_cons, side_turn, ← e1, ← hN]
  unfold faceBoundary
  cases hs : f.s2 with
  | none =>
    simp only [List.map_nil, List.sum_nil, add_zero]
    have : f.toFace.ndof2 = 0 := by simp [FemFace.toFace, hs]
    simp only [tr2, this, Finset.range_zero, Finset.sum_empty, mul_zero, sub_zero]
    change ((f.rule.map (point f)).map _).sum = _
    rw [List.map_map]
    congr 1
    refine List.map_congr_left fun q _ => ?_
    have t1 := tr1_eq f q (point f q) fun _ => rfl
    have tn := normal_term f q d h
    change q.1 * normalTerm ((normal f.s1).map fun c => eval q.2 c) d * (tr1 f.toFace (point f q) v * tr1 f.toFace (point f q) u) = _
    rw [t1, t1, tn, map_mul, map_mul]
    ring
  | some s =>
    have hs' : s ∈ f.s2 := by rw [hs]; rfl
    have e2 := hq _ (hdeg s (p2 s hs'))
    have e3 : side ⟨d.val, h⟩ v u (s.e, s.face) = -(f.rule.map fun q => q.1 * eval q.2 ((normal f.s1).getD (⟨d.val, h⟩ : Fin (n + 1)) 0 *
        (s.restrict (fld s.e v) * s.restrict (fld s.e u)))).sum := by
      rw [e2, side_turn, meet_normal hn h1 (h2 s hs') ⟨d.val, h⟩, ← map_neg]
      congr 1
      ring
    simp only [List.map_cons, List.map_nil, List.sum_cons, List.sum_nil, add_zero]
    rw [e3, ← sub_eq_add_neg, list_sum_sub]
    change ((f.rule.map (point f)).map _).sum = _
    rw [List.map_map]
    congr 1
    refine List.map_congr_left fun q _ => ?_
    have t1 := tr1_eq f q (point f q) fun _ => rfl
    have t2 := tr2_eq f s hs q (point f q) fun _ => by simp [point, hs]
    have tn := normal_term f q d h
    change q.1 * normalTerm ((normal f.s1).map fun c => eval q.2 c) d * (tr1 f.toFace (point f q) v * tr1 f.toFace (point f q) u -
      tr2 f.toFace (point f q) v * tr2 f.toFace (point f q) u) = _
    rw [t1, t1, t2, t2, tn, map_mul, map_mul, map_mul, map_mul]
    ring

theorem sbp (F : Fem n ι K) {p m : Nat} (h : Simplicial F p m) : SBP F.prob := by
  intro d hd v u
  have hd : d.val < n + 1 := hd
  have hm : ∀ f ∈ Spec.faces F, ∀ x ∈ Spec.sides f, ∃ e ∈ F.els, x.1 = e.1 := by
    intro f hf x hx
    have := h.cover.subset (List.mem_flatMap.2 ⟨f, hf, hx⟩)
    obtain ⟨e, he, hx⟩ := List.mem_flatMap.1 this
    obtain ⟨g, _, hg⟩ := List.mem_map.1 hx
    exact ⟨e, he, by rw [← hg]⟩
  have hf : (allFaces F.prob).map (fun f => faceBoundary f d v u) = (Spec.faces F).map fun f => faceBoundary f.toFace d v u := by
    simp [allFaces, Fem.prob, Spec.faces, List.map_map, Function.comp_def]
  rw [hf]
  have hfi : ((Spec.faces F).map fun f => faceBoundary f.toFace d v u) = (Spec.faces F).map fun f => ((Spec.sides f).map (side ⟨d.val, hd⟩ v u)).sum := by
    refine List.map_congr_left fun f hf => ?_
    obtain ⟨e1, he1, hx1⟩ := hm f hf (f.s1.e, f.s1.face) (by simp [Spec.sides])
    have hx1 : f.s1.e = e1.1 := hx1
    refine face_identity (p := p) (m := m) h.dim f (h.one f hf) (h.two f hf) (by rw [hx1]; exact h.geom e1 he1)
      (by rw [hx1]; exact h.shape e1 he1) (fun s hs => ?_) (h.surface f hf) d hd v u
    have hs' : f.s2 = some s := hs
    obtain ⟨e2, he2, hx2⟩ := hm f hf (s.e, s.face) (by simp [Spec.sides, hs'])
    have hx2 : s.e = e2.1 := hx2
    rw [hx2]
    exact h.shape e2 he2
  rw [hfi]
  have flat : ∀ {α β : Type} (l : List α) (g : α → List β) (w : β → K), (l.map fun a => ((g a).map w).sum).sum = ((l.flatMap g).map w).sum := by
    intro α β l g w
    induction l with
    | nil => simp
    | cons a l ih => simp [ih]
  rw [flat, (h.cover.map _).sum_eq, Spec.elemFaces, ← flat]
  change v ⬝ᵥ (derivMatrix F.els d).mulVec u + u ⬝ᵥ (derivMatrix F.els d).mulVec v = _
  rw [deriv_form _ _ hd, deriv_form _ _ hd, list_sum_add]
  congr 1
  refine List.map_congr_left fun e he => ?_
  exact elem_identity h.dim h.order h.geomOrder e (h.geom e he) (h.shape e he) (h.volume e he) _ v u

end Dgtd.Galerkin
