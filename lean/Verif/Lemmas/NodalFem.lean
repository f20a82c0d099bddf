/-
The data read off a mesh of straight triangles or tetrahedra describe the problem assembled from it.
-/
import Verif.Spec.NodalFem
import Verif.Lemmas.Cfl

set_option linter.unusedSectionVars false

namespace Dgtd.NodalFem
open MvPolynomial Spec Dgtd.Galerkin Dgtd.Galerkin.Spec
open Dgtd.Op (BdrCond normalTerm Pt FieldT)
open Dgtd.Nodal (Ref refMesh BdrMaps)
open Dgtd.Nodal.Spec (Inner Outer posOf num faceMass RefOk ElemsOk InnerOk OuterOk CondsOk Same unitVolume)
open Dgtd.Config (Material)

variable {n ne : Nat}

/-! ### faces of the reference simplex -/

lemma eval_bind (face : Option (Fin (n + 1))) (turn : Equiv.Perm (Fin (n + 1))) (q : Poly (n + 1) ℝ) (x : Fin n → ℝ) :
    eval x (bind₁ (loc face turn) q) = eval (fun j => eval x (loc face turn j)) q := by
  induction q using MvPolynomial.induction_on with
  | C a => simp
  | add p q hp hq => simp [hp, hq]
  | mul_X p i hp => simp [hp]

lemma loc_on (face : Option (Fin (n + 1))) (turn : Equiv.Perm (Fin (n + 1))) (y : Fin n → ℝ) :
    OnFace face fun j => eval y (loc face turn j : Poly n ℝ) := by
  cases face with
  | none =>
    change ∑ j, eval y (loc none turn j : Poly n ℝ) = 1
    simp only [loc, reduceCtorEq, if_false]
    rw [Equiv.sum_comp turn fun i => eval y (bary i : Poly n ℝ), bary_sum]
  | some k =>
    change eval y (loc (some k) turn k : Poly n ℝ) = 0
    simp [loc]

/-- Every point of a face has coordinates on it. -/
lemma face_point (face : Option (Fin (n + 1))) (turn : Equiv.Perm (Fin (n + 1))) (x : Fin (n + 1) → ℝ) (hx : OnFace face x) :
    ∃ y : Fin n → ℝ, (fun j => eval y (loc face turn j : Poly n ℝ)) = x := by
  have bary_of : ∀ b : Fin (n + 1) → ℝ, ∑ i, b i = 1 → ∀ i, eval (fun j => b j.succ) (bary i : Poly n ℝ) = b i := by
    intro b hb i
    rw [Fin.sum_univ_succ] at hb
    refine Fin.cases ?_ (fun j => ?_) i
    · simp [bary]; linarith
    · simp [bary]
  cases face with
  | none =>
    have hx : ∑ j, x j = 1 := hx
    refine ⟨fun j => x (turn.symm j.succ), funext fun j => ?_⟩
    simp only [loc, reduceCtorEq, if_false]
    rw [bary_of (fun i => x (turn.symm i)) (by rw [Equiv.sum_comp turn.symm x, hx])]
    simp
  | some k =>
    have hx : x k = 0 := hx
    obtain ⟨b, hb⟩ : ∃ b : Fin (n + 1) → ℝ, b = fun i => if turn.symm i = k then 1 - ∑ j, x j else x (turn.symm i) := ⟨_, rfl⟩
    have hb1 : ∑ i, b i = 1 := by
      rw [hb, Equiv.sum_comp turn.symm fun j => if j = k then 1 - ∑ j, x j else x j]
      rw [← Finset.add_sum_erase _ _ (Finset.mem_univ k), ← Finset.add_sum_erase Finset.univ x (Finset.mem_univ k), if_pos rfl, hx, zero_add,
        Finset.sum_congr rfl fun j hj => if_neg (Finset.mem_erase.1 hj).1]
      ring
    refine ⟨fun j => b j.succ, funext fun j => ?_⟩
    unfold loc
    split
    · rename_i h
      obtain rfl := Option.some.inj h
      simp [hx]
    · rename_i h
      rw [bary_of b hb1, hb]
      simp only [Equiv.symm_apply_apply]
      rw [if_neg fun e => h (by rw [e])]

/-- Every polynomial on a face comes from one on the element of the same degree. -/
lemma extend (face : Option (Fin (n + 1))) (turn : Equiv.Perm (Fin (n + 1))) (q : Poly n ℝ) {p : Nat} (hq : q.totalDegree ≤ p) :
    ∃ Q : Poly (n + 1) ℝ, Q.totalDegree ≤ p ∧ bind₁ (loc face turn) Q = q := by
  have hb : ∑ i, (bary i : Poly n ℝ) = 1 := by
    rw [Fin.sum_univ_succ]
    simp [bary]
  obtain ⟨g, hg, hgd⟩ : ∃ g : Fin n → Poly (n + 1) ℝ, (∀ j, bind₁ (loc face turn) (g j) = X j) ∧ ∀ j, (g j).totalDegree ≤ 1 := by
    refine ⟨fun j => if face = some (turn.symm j.succ) then 1 - ∑ i, X i else X (turn.symm j.succ), fun j => ?_, fun j => ?_⟩
    · beta_reduce
      split
      · rename_i h
        rw [map_sub, map_one, map_sum]
        simp only [bind₁_X_right]
        rw [h, ← Finset.add_sum_erase _ _ (Finset.mem_univ (turn.symm j.succ))]
        have h1 : (loc (some (turn.symm j.succ)) turn (turn.symm j.succ) : Poly n ℝ) = 0 := by simp [loc]
        have h2 : ∀ i ∈ Finset.univ.erase (turn.symm j.succ), (loc (some (turn.symm j.succ)) turn i : Poly n ℝ) = bary (turn i) := by
          intro i hi
          have := (Finset.mem_erase.1 hi).1
          unfold loc
          rw [if_neg fun e => this (Option.some.inj e).symm]
        rw [h1, Finset.sum_congr rfl h2, zero_add]
        have h3 := Finset.add_sum_erase Finset.univ (fun i => (bary (turn i) : Poly n ℝ)) (Finset.mem_univ (turn.symm j.succ))
        rw [Equiv.sum_comp turn fun i => (bary i : Poly n ℝ), hb, Equiv.apply_symm_apply] at h3
        rw [← h3]
        simp [bary]
      · rename_i h
        rw [bind₁_X_right]
        unfold loc
        rw [if_neg h, Equiv.apply_symm_apply]
        simp [bary]
    · beta_reduce
      split
      · refine (totalDegree_sub _ _).trans (max_le (by simp) (degree_sum_le fun i _ => ?_))
        rw [totalDegree_X]
      · rw [totalDegree_X]
  refine ⟨bind₁ g q, (totalDegree_bind g hgd q).trans hq, ?_⟩
  rw [bind₁_bind₁]
  simp only [hg]
  exact aeval_X_left_apply q

/-! ### nodes at the same place have the same shape functions -/

lemma meet_geom {ι : Type} : ∀ {n : Nat} (_ : 0 < n) {s s2 : Side n ι ℝ} (_ : Meet s s2) (d : Fin (n + 1)),
    s.restrict (s.e.geom d) = s2.restrict (s2.e.geom d)
  | 0, h, _, _, _, _ => absurd h (lt_irrefl 0)
  | _ + 1, _, _, _, h, d => h.1 d

lemma geom_injective {ι : Type} (e : Elem n ι ℝ) (hg : ∀ d, (e.geom d).totalDegree ≤ 1) (hj : eval 0 e.jac.det ≠ 0) {x y : Fin (n + 1) → ℝ}
    (h : ∀ d, eval x (e.geom d) = eval y (e.geom d)) : x = y := by
  choose a b hab using fun d => affine (e.geom d) (hg d)
  have hjac : e.jac = (Matrix.of b).map C := by
    funext d k
    simp [Elem.jac, hab d, pderiv_X, Pi.single_apply]
  have hdet : e.jac.det = C (Matrix.of b).det := by
    rw [hjac]
    exact (RingHom.map_det C (Matrix.of b)).symm
  rw [hdet, eval_C] at hj
  have h0 : (Matrix.of b).mulVec (x - y) = 0 := by
    funext d
    have := h d
    rw [hab d] at this
    simp only [map_add, eval_C, map_sum, map_mul, eval_X, add_right_inj] at this
    simp only [Matrix.mulVec, dotProduct, Matrix.of_apply, Pi.sub_apply, mul_sub, Finset.sum_sub_distrib, this, sub_self, Pi.zero_apply]
  have := Matrix.eq_zero_of_mulVec_eq_zero hj h0
  exact sub_eq_zero.1 this

variable {R : Ref ℝ} {w : ℝ} {p : Nat} {sh : Nat → Poly (n + 1) ℝ} {pt : Fin R.n → Fin (n + 1) → ℝ} {fc : Option (Fin (n + 1)) ≃ Fin R.nF}
  {node : Fin R.nF → Fin R.nf → Fin R.n} {S : Setup n (Fin ne × Fin R.n)} {cell : Fin ne → Cell n (Fin ne × Fin R.n)}
  {el : Nat → Dgtd.Nodal.Elem ℝ} {c : Nat → Nat × Nat} {links : List (Link n ne R.n R.nf)} {walls : List (Wall n ne R.n)}

lemma cell_mem (E : Elements R sh fc S cell el) (e : Fin ne) : cell e ∈ S.cells := by
  rw [E.cells]
  exact List.mem_map_of_mem (List.mem_finRange e)

lemma pos_dim (A : Shapes R w p sh pt fc node) : 0 < n := by
  rcases A.geom with h | h <;> omega

/-- The expansion in shape functions. -/
lemma expand (A : Shapes R w p sh pt fc node) (q : Poly (n + 1) ℝ) (hq : q.totalDegree ≤ p) : q = ∑ i : Fin R.n, C (eval (pt i) q) * sh i := by
  obtain ⟨a, ha⟩ := A.complete q hq
  have : ∀ i, eval (pt i) q = a i := by
    intro i
    rw [ha]
    simp [A.delta]
  simp only [this]
  exact ha

lemma restrict_off (A : Shapes R w p sh pt fc node) (face : Option (Fin (n + 1))) (turn : Equiv.Perm (Fin (n + 1))) (i : Fin R.n)
    (hi : ∀ k, node (fc face) k ≠ i) : bind₁ (loc face turn) (sh i) = 0 := by
  refine MvPolynomial.funext fun x => ?_
  rw [eval_bind, map_zero]
  exact A.off face i hi _ (loc_on face turn x)

lemma mem_interior (N : Connected R pt fc node S cell c links walls) {l : Link n ne R.n R.nf} (hl : l ∈ links) : l.q.2.fem ∈ Galerkin.Spec.faces S.skeleton := by
  unfold Galerkin.Spec.faces Setup.skeleton
  rw [N.interior]
  simp only [List.map_map, List.mem_append, List.mem_map]
  exact Or.inl ⟨l, hl, rfl⟩

lemma mem_bdr (N : Connected R pt fc node S cell c links walls) {l : Wall n ne R.n} (hl : l ∈ walls) : l.q.2.fem ∈ Galerkin.Spec.faces S.skeleton := by
  unfold Galerkin.Spec.faces Setup.skeleton
  rw [N.bdr]
  simp only [List.map_map, List.mem_append, List.mem_map]
  exact Or.inr ⟨l, hl, rfl⟩

lemma link_meet (hm : ValidMesh S p 1) (N : Connected R pt fc node S cell c links walls) {l : Link n ne R.n R.nf} (hl : l ∈ links) :
    Meet l.q.2.s1 l.s2 := hm.simplicial.two _ (mem_interior N hl) _ (N.sides l hl).2.1

lemma same_shape (hm : ValidMesh S p 1) (A : Shapes R w p sh pt fc node) (E : Elements R sh fc S cell el)
    (N : Connected R pt fc node S cell c links walls) {l : Link n ne R.n R.nf} (hl : l ∈ links) (k : Fin R.nf) :
    l.s2.restrict (sh (node (fc l.s2.face) (l.mate k))) = l.q.2.s1.restrict (sh (node (fc l.q.2.s1.face) k)) := by
  obtain ⟨e1, -, e2⟩ := N.sides l hl
  have hgeo := meet_geom (pos_dim A) (link_meet hm N hl)
  obtain ⟨q, hq⟩ : ∃ q, q = l.q.2.s1.restrict (sh (node (fc l.q.2.s1.face) k)) := ⟨_, rfl⟩
  have hqd : q.totalDegree ≤ p := by rw [hq]; exact degree_restrict _ (A.degree _)
  obtain ⟨Q, hQd, hQ⟩ := extend l.s2.face l.s2.turn q hqd
  rw [← hq]
  have hex := congrArg (bind₁ (loc l.s2.face l.s2.turn)) (expand A Q hQd)
  rw [hQ, map_sum] at hex
  simp only [map_mul, bind₁_C_right] at hex
  -- the values at the nodes of the face
  have hval : ∀ k', eval (pt (node (fc l.s2.face) (l.mate k'))) Q = if k' = k then 1 else 0 := by
    intro k'
    obtain ⟨y, hy⟩ := face_point l.s2.face l.s2.turn _ (A.on l.s2.face (l.mate k'))
    have h1 : eval (pt (node (fc l.s2.face) (l.mate k'))) Q = eval y q := by rw [← hQ, eval_bind, hy]
    rw [h1, hq, eval_restrict]
    have hx : (fun j => eval y (loc l.q.2.s1.face l.q.2.s1.turn j)) = pt (node (fc l.q.2.s1.face) k') := by
      refine geom_injective (cell l.e1).e (hm.geom (cell_mem E l.e1)) (hm.jacobian _ (cell_mem E l.e1) 0 ⟨fun i => le_rfl, by simp⟩).ne' fun d => ?_
      have h2 := congrArg (eval y) (hgeo d)
      rw [eval_restrict, eval_restrict, hy, e1, e2, N.place l hl k' d] at h2
      exact h2
    rw [hx, A.delta]
    simp only [(A.mono (fc l.q.2.s1.face)).injective.eq_iff]
  rw [hex, Finset.sum_eq_single (node (fc l.s2.face) (l.mate k))]
  · rw [hval, if_pos rfl, map_one, one_mul]
    rfl
  · intro i _ hi
    by_cases hk : ∃ k', node (fc l.s2.face) k' = i
    · obtain ⟨k', rfl⟩ := hk
      obtain ⟨k'', rfl⟩ := l.mate.surjective k'
      rw [hval, if_neg, map_zero, zero_mul]
      rintro rfl
      exact hi rfl
    · push Not at hk
      rw [restrict_off A _ _ _ hk, mul_zero]
  · simp

end Dgtd.NodalFem
