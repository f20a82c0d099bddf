/-
C141: meshes that meet the hypotheses.
-/
import Verif.Props.Galerkin

set_option linter.unusedSectionVars false
set_option linter.unusedSimpArgs false

namespace Dgtd.Galerkin.Case
open MvPolynomial Spec Dgtd.Op Dgtd.Op.Spec

lemma exact_of_monomials {D N : Nat} {r : Rule D ℝ} (h : ∀ a : Fin D →₀ ℕ, ∑ i, a i ≤ N → (r.map fun p => p.1 * ∏ i, p.2 i ^ a i).sum = moment D a) :
    Exact N r := by
  intro q hq
  have hs : ∀ (l : Rule D ℝ), (l.map fun p => p.1 * eval p.2 q).sum = ∑ a ∈ q.support, coeff a q * (l.map fun p => p.1 * ∏ i, p.2 i ^ a i).sum := by
    intro l
    induction l with
    | nil => simp
    | cons p l ih =>
      simp only [List.map_cons, List.sum_cons, mul_add, Finset.sum_add_distrib, ih]
      congr 1
      rw [eval_eq', Finset.mul_sum]
      refine Finset.sum_congr rfl fun a _ => by ring
  rw [hs]
  have hi : integral D q = ∑ a ∈ q.support, coeff a q * moment D a := by
    conv_lhs => rw [q.as_sum, map_sum]
    refine Finset.sum_congr rfl fun a _ => integral_monomial a _
  rw [hi]
  refine Finset.sum_congr rfl fun a ha => ?_
  rw [h a]
  have := le_totalDegree ha
  rw [Finsupp.sum_fintype _ _ (by simp)] at this
  exact this.trans hq

/-- The midpoints of the sides of a triangle. -/
noncomputable def midpoints : Rule 2 ℝ := [(1 / 6, ![1 / 2, 0]), (1 / 6, ![1 / 2, 1 / 2]), (1 / 6, ![0, 1 / 2])]

lemma midpoints_exact : Exact 2 midpoints := by
  refine exact_of_monomials fun a ha => ?_
  rw [Fin.sum_univ_two] at ha
  simp only [midpoints, moment, List.map_cons, List.map_nil, List.sum_cons, List.sum_nil, Fin.prod_univ_two, Fin.sum_univ_two]
  generalize a 0 = x at ha ⊢
  generalize a 1 = y at ha ⊢
  have hx : x ≤ 2 := by omega
  interval_cases x
  · have hy : y ≤ 2 := by omega
    interval_cases y <;> simp [Nat.factorial] <;> norm_num
  · have hy : y ≤ 1 := by omega
    interval_cases y <;> simp [Nat.factorial] <;> norm_num
  · have hy : y ≤ 0 := by omega
    interval_cases y <;> simp [Nat.factorial] <;> norm_num

/-- Eight equidistant points on the segment. -/
noncomputable def eight : Rule 1 ℝ :=
  [(751 / 17280, ![0]), (3577 / 17280, ![1 / 7]), (1323 / 17280, ![2 / 7]), (2989 / 17280, ![3 / 7]), (2989 / 17280, ![4 / 7]),
    (1323 / 17280, ![5 / 7]), (3577 / 17280, ![6 / 7]), (751 / 17280, ![1])]

lemma eight_exact : Exact 7 eight := by
  refine exact_of_monomials fun a ha => ?_
  rw [Fin.sum_univ_one] at ha
  simp only [eight, moment, List.map_cons, List.map_nil, List.sum_cons, List.sum_nil, Fin.prod_univ_one, Fin.sum_univ_one]
  generalize a 0 = x at ha ⊢
  interval_cases x <;> simp [Nat.factorial] <;> norm_num

/-- MFEM's rule of order 3 on the triangle, with a negative weight. -/
noncomputable def negative : Rule 2 ℝ :=
  [(-(9 / 32), ![1 / 3, 1 / 3]), (25 / 96, ![1 / 5, 1 / 5]), (25 / 96, ![3 / 5, 1 / 5]), (25 / 96, ![1 / 5, 3 / 5])]

lemma negative_exact : Exact 3 negative := by
  refine exact_of_monomials fun a ha => ?_
  rw [Fin.sum_univ_two] at ha
  simp only [negative, moment, List.map_cons, List.map_nil, List.sum_cons, List.sum_nil, Fin.prod_univ_two, Fin.sum_univ_two]
  generalize a 0 = x at ha ⊢
  generalize a 1 = y at ha ⊢
  have hx : x ≤ 3 := by omega
  have hy : y ≤ 3 := by omega
  interval_cases x <;> interval_cases y <;> first | omega | (simp [Nat.factorial] <;> norm_num)

/-- The centre of the tetrahedron. -/
noncomputable def centre : Rule 3 ℝ := [(1 / 6, ![1 / 4, 1 / 4, 1 / 4])]

lemma centre_exact : Exact 1 centre := by
  refine exact_of_monomials fun a ha => ?_
  rw [Fin.sum_univ_three] at ha
  simp only [centre, moment, List.map_cons, List.map_nil, List.sum_cons, List.sum_nil, Fin.prod_univ_three, Fin.sum_univ_three]
  generalize a 0 = x at ha ⊢
  generalize a 1 = y at ha ⊢
  generalize a 2 = z at ha ⊢
  have hx : x ≤ 1 := by omega
  have hy : y ≤ 1 := by omega
  have hz : z ≤ 1 := by omega
  interval_cases x <;> interval_cases y <;> interval_cases z <;> first | omega | (simp [Nat.factorial] <;> norm_num)

/-! ### a tetrahedron -/

/-- Shape functions of the first order. -/
noncomputable def linear (n : Nat) (i : Nat) : Poly (n + 1) ℝ :=
  if i = 0 then 1 - ∑ j, X j else if h : i - 1 < n + 1 then X ⟨i - 1, h⟩ else 0

lemma linear_degree (n i : Nat) : (linear n i).totalDegree ≤ 1 := by
  unfold linear
  split
  · exact degree_sub_le (by simp) (degree_sum_le fun j _ => by simp)
  · split <;> simp

noncomputable def tetra : Elem 2 (Fin 4) ℝ := { geom := X, size := 4, shape := linear 2, dof := fun i => Fin.ofNat 4 i }

/-- Its faces, turned outwards; `w`: area of the face relative to the reference triangle. -/
noncomputable def tetraFace (face : Option (Fin 3)) (turn : Equiv.Perm (Fin 3)) (w : ℝ) : FemFace 2 (Fin 4) ℝ :=
  { s1 := ⟨tetra, face, turn⟩, s2 := none, rule := negative, W := fun _ => w }

noncomputable def tetraMesh : Fem 2 (Fin 4) ℝ :=
  { els := [(tetra, centre)]
    interior := []
    bdr := [(some .PEC, tetraFace none 1 √3), (some .SMA, tetraFace (some 0) (Equiv.swap 1 2) 1),
      (some .PMC, tetraFace (some 1) (Equiv.swap 0 1) 1), (some .SMA, tetraFace (some 2) (Equiv.swap 0 2) 1)]
    alpha := 1
    Minv := fun _ => 1
    Msig := 0 }

lemma bary2 : (bary 0 : Poly 2 ℝ) = 1 - (X 0 + X 1) ∧ (bary 1 : Poly 2 ℝ) = X 0 ∧ (bary 2 : Poly 2 ℝ) = X 1 := by
  refine ⟨?_, rfl, rfl⟩
  change (1 - ∑ j, X j : Poly 2 ℝ) = _
  rw [Fin.sum_univ_two]

lemma bary1 : (bary 0 : Poly 1 ℝ) = 1 - X 0 ∧ (bary 1 : Poly 1 ℝ) = X 0 := by
  refine ⟨?_, rfl⟩
  change (1 - ∑ j, X j : Poly 1 ℝ) = _
  rw [Fin.sum_univ_one]

lemma swaps : Equiv.swap (1 : Fin 3) 2 1 = 2 ∧ Equiv.swap (1 : Fin 3) 2 2 = 1 ∧ Equiv.swap (0 : Fin 3) 1 0 = 1 ∧ Equiv.swap (0 : Fin 3) 1 2 = 2 ∧
    Equiv.swap (0 : Fin 3) 2 0 = 2 ∧ Equiv.swap (0 : Fin 3) 2 1 = 1 := by decide

lemma pd2 (i j : Fin 2) : pderiv i (X j : Poly 2 ℝ) = if i = j then 1 else 0 := by
  rw [pderiv_X, Pi.single_apply]
  by_cases h : i = j
  · rw [if_pos h, if_pos h.symm]
  · rw [if_neg h, if_neg (Ne.symm h)]

lemma finRange3 : List.finRange (2 + 1) = [0, 1, 2] := rfl

lemma finRange2 : List.finRange (1 + 1) = [0, 1] := rfl

lemma out_tetra : ∀ f ∈ Spec.faces tetraMesh, Outward f.s1 := by
  obtain ⟨b0, b1, b2⟩ := bary2
  obtain ⟨s1, s2, s3, s4, s5, s6⟩ := swaps
  intro f hf
  simp only [Spec.faces, tetraMesh, List.map_nil, List.nil_append, List.map_cons, List.mem_cons, List.not_mem_nil, or_false] at hf
  rcases hf with rfl | rfl | rfl | rfl
  · simp [Outward, normal, refSide_jac, tetraFace, loc, refNormal, finRange3, pd2, b0, b1, b2]
  · simp [Outward, normal, refSide_jac, tetraFace, loc, refNormal, finRange3, pd2, b0, b1, b2, s1, s2, s3, s4, s5, s6]
  · simp [Outward, normal, refSide_jac, tetraFace, loc, refNormal, finRange3, pd2, b0, b1, b2, s1, s2, s3, s4, s5, s6]
  · simp [Outward, normal, refSide_jac, tetraFace, loc, refNormal, finRange3, pd2, b0, b1, b2, s1, s2, s3, s4, s5, s6]

lemma tetra_simplicial : Simplicial tetraMesh 1 1 := by
  refine ⟨by omega, le_rfl, le_rfl, ?_, ?_, ?_, out_tetra, ?_, ?_, ?_⟩
  · intro e he d
    simp only [tetraMesh, List.mem_singleton] at he
    subst he
    simp [tetra]
  · intro e he i
    simp only [tetraMesh, List.mem_singleton] at he
    subst he
    exact linear_degree 2 i
  · exact List.Perm.of_eq rfl
  · intro f hf s hs
    simp only [Spec.faces, tetraMesh, List.map_nil, List.nil_append, List.map_cons, List.mem_cons, List.not_mem_nil, or_false] at hf
    rcases hf with rfl | rfl | rfl | rfl <;> simp [tetraFace] at hs
  · intro e he
    simp only [tetraMesh, List.mem_singleton] at he
    subst he
    exact centre_exact
  · intro f hf
    simp only [Spec.faces, tetraMesh, List.map_nil, List.nil_append, List.map_cons, List.mem_cons, List.not_mem_nil, or_false] at hf
    rcases hf with rfl | rfl | rfl | rfl <;> exact negative_exact

lemma normal_tetra {f : FemFace 2 (Fin 4) ℝ} (hf : f ∈ Spec.faces tetraMesh) : normal f.s1 = (List.finRange 3).map fun k => C (refNormal f.s1.face k) := by
  have h := out_tetra f hf
  rw [← h]
  simp only [Spec.faces, tetraMesh, List.map_nil, List.nil_append, List.map_cons, List.mem_cons, List.not_mem_nil, or_false] at hf
  rcases hf with rfl | rfl | rfl | rfl <;> rfl

lemma tetra_regular : Regular tetraMesh.prob fun _ => 1 := by
  refine ⟨le_rfl, fun f hf p hp => ?_, ?_, ?_, ?_, fun _ => by simp [Fem.prob, tetraMesh], fun _ => by simp⟩
  · have : f ∈ (Spec.faces tetraMesh).map FemFace.toFace := by
      simpa [allFaces, Fem.prob, Spec.faces, List.map_map, Function.comp_def] using hf
    obtain ⟨g, hg, rfl⟩ := List.mem_map.1 this
    have hp : p ∈ g.rule.map (point g) := hp
    obtain ⟨q, hq, rfl⟩ := List.mem_map.1 hp
    have hn := normal_tetra hg
    have hl : (point g q).nor = (List.finRange 3).map fun k => refNormal g.s1.face k := by
      change (normal g.s1).map (fun c => eval q.2 c) = _
      rw [hn]; simp
    have f3 : List.finRange 3 = [0, 1, 2] := rfl
    have hs : √3 ^ 2 = (3 : ℝ) := Real.sq_sqrt (by norm_num)
    simp only [Spec.faces, tetraMesh, List.map_nil, List.nil_append, List.map_cons, List.mem_cons, List.not_mem_nil, or_false] at hg
    rcases hg with rfl | rfl | rfl | rfl
    · refine ⟨by simp [point, tetraFace], by rw [hl]; rfl, ?_⟩
      rw [hl, f3]
      simp [normalTerm, refNormal, tetraFace, point, hs]
      norm_num
    all_goals
      refine ⟨by simp [point, tetraFace], by rw [hl]; rfl, ?_⟩
      rw [hl, f3]
      simp [normalTerm, refNormal, tetraFace, point]
  · intro q hq
    simp [Fem.prob, tetraMesh] at hq
    rcases hq with rfl | rfl | rfl | rfl <;> simp
  · intro q hq
    simp [Fem.prob, tetraMesh] at hq
    rcases hq with rfl | rfl | rfl | rfl <;> rfl
  · intro q hq
    simp [Fem.prob, tetraMesh] at hq

/-- The energy in a tetrahedron with a negative quadrature weight on every face does not grow. -/
example (u : State (Fin 4) ℝ) : energyRate (fun _ => 1) u (globalMult tetraMesh.prob u) ≤ 0 :=
  C141_energy tetraMesh tetra_simplicial _ tetra_regular zero_le_one (fun v => by simp [tetraMesh]) u

/-! ### a triangle with a curved side -/

noncomputable def bent (c : ℝ) : Elem 1 (Fin 3) ℝ :=
  { geom := ![X 0 + C c * X 0 * X 1, X 1], size := 3, shape := linear 1, dof := fun i => Fin.ofNat 3 i }

/-- Length of the tangent. -/
noncomputable def sideW (s : Side 1 (Fin 3) ℝ) (x : Fin 1 → ℝ) : ℝ := √(eval x (s.jac 1 0) ^ 2 + eval x (s.jac 0 0) ^ 2)

noncomputable def bentFace (c : ℝ) (face : Option (Fin 2)) (turn : Equiv.Perm (Fin 2)) : FemFace 1 (Fin 3) ℝ :=
  { s1 := ⟨bent c, face, turn⟩, s2 := none, rule := eight, W := sideW ⟨bent c, face, turn⟩ }

noncomputable def bentMesh (c : ℝ) : Fem 1 (Fin 3) ℝ :=
  { els := [(bent c, midpoints)]
    interior := []
    bdr := [(some .PEC, bentFace c none 1), (some .SMA, bentFace c (some 0) (Equiv.swap 0 1)), (some .PMC, bentFace c (some 1) (Equiv.swap 0 1))]
    alpha := 1
    Minv := fun _ => 1
    Msig := 0 }

lemma pd1 : pderiv 0 (X 0 : Poly 1 ℝ) = 1 := by rw [pderiv_X]; simp

lemma out_bent (c : ℝ) : ∀ f ∈ Spec.faces (bentMesh c), Outward f.s1 := by
  obtain ⟨b0, b1⟩ := bary1
  intro f hf
  simp only [Spec.faces, bentMesh, List.map_nil, List.nil_append, List.map_cons, List.mem_cons, List.not_mem_nil, or_false] at hf
  rcases hf with rfl | rfl | rfl <;> simp [Outward, normal, refSide_jac, bentFace, loc, refNormal, finRange2, b0, b1]

lemma bent_simplicial (c : ℝ) : Simplicial (bentMesh c) 1 2 := by
  refine ⟨by omega, le_rfl, by omega, ?_, ?_, ?_, out_bent c, ?_, ?_, ?_⟩
  · intro e he d
    simp only [bentMesh, List.mem_singleton] at he
    subst he
    fin_cases d
    · change (X 0 + C c * X 0 * X 1 : Poly 2 ℝ).totalDegree ≤ 2
      refine degree_add_le (by simp) ?_
      exact degree_mul_le (a := 1) (b := 1) (degree_mul_le (a := 0) (b := 1) (by simp) (by simp)) (by simp)
    · change (X 1 : Poly 2 ℝ).totalDegree ≤ 2
      simp
  · intro e he i
    simp only [bentMesh, List.mem_singleton] at he
    subst he
    exact linear_degree 1 i
  · exact List.Perm.of_eq rfl
  · intro f hf s hs
    simp only [Spec.faces, bentMesh, List.map_nil, List.nil_append, List.map_cons, List.mem_cons, List.not_mem_nil, or_false] at hf
    rcases hf with rfl | rfl | rfl <;> simp [bentFace] at hs
  · intro e he
    simp only [bentMesh, List.mem_singleton] at he
    subst he
    exact midpoints_exact
  · intro f hf
    simp only [Spec.faces, bentMesh, List.map_nil, List.nil_append, List.map_cons, List.mem_cons, List.not_mem_nil, or_false] at hf
    rcases hf with rfl | rfl | rfl <;> exact exact_mono eight_exact (show faceOrder .Pk 2 1 (orderW .Pk 2 2) none ≤ 7 by decide)

lemma bent_length (c : ℝ) {f : FemFace 1 (Fin 3) ℝ} (hf : f ∈ Spec.faces (bentMesh c)) (x : Fin 1 → ℝ) :
    0 < eval x (f.s1.jac 1 0) ^ 2 + eval x (f.s1.jac 0 0) ^ 2 := by
  obtain ⟨b0, b1⟩ := bary1
  simp only [Spec.faces, bentMesh, List.map_nil, List.nil_append, List.map_cons, List.mem_cons, List.not_mem_nil, or_false] at hf
  rcases hf with rfl | rfl | rfl <;> simp [Side.jac, Side.restrict, bentFace, bent, loc, b0, b1, pderiv_mul] <;> positivity

lemma bent_regular (c : ℝ) : Regular (bentMesh c).prob fun _ => 1 := by
  refine ⟨by change 2 ≤ 3; omega, fun f hf p hp => ?_, ?_, ?_, ?_, fun _ => by simp [Fem.prob, bentMesh], fun _ => by simp⟩
  · have : f ∈ (Spec.faces (bentMesh c)).map FemFace.toFace := by
      simpa [allFaces, Fem.prob, Spec.faces, List.map_map, Function.comp_def] using hf
    obtain ⟨g, hg, rfl⟩ := List.mem_map.1 this
    have hp : p ∈ g.rule.map (point g) := hp
    obtain ⟨q, hq, rfl⟩ := List.mem_map.1 hp
    have hw : (point g q).W = √(eval q.2 (g.s1.jac 1 0) ^ 2 + eval q.2 (g.s1.jac 0 0) ^ 2) := by
      simp only [Spec.faces, bentMesh, List.map_nil, List.nil_append, List.map_cons, List.mem_cons, List.not_mem_nil, or_false] at hg
      rcases hg with rfl | rfl | rfl <;> rfl
    have hl := bent_length c hg q.2
    refine ⟨by rw [hw]; exact Real.sqrt_pos.2 hl, rfl, ?_⟩
    rw [hw, Real.sq_sqrt hl.le]
    simp [normalTerm, point, normal]
  · intro q hq
    simp [Fem.prob, bentMesh] at hq
    rcases hq with rfl | rfl | rfl <;> simp
  · intro q hq
    simp [Fem.prob, bentMesh] at hq
    rcases hq with rfl | rfl | rfl <;> rfl
  · intro q hq
    simp [Fem.prob, bentMesh] at hq

example (c : ℝ) (u : State (Fin 3) ℝ) : energyRate (fun _ => 1) u (globalMult (bentMesh c).prob u) ≤ 0 := by
  refine C141_curved (bentMesh c) (bent_simplicial c) _ (bent_regular c) (fun f hf q hq => ?_) zero_le_one (fun v => by simp [bentMesh]) u
  have : f.rule = eight := by
    simp only [Spec.faces, bentMesh, List.map_nil, List.nil_append, List.map_cons, List.mem_cons, List.not_mem_nil, or_false] at hf
    rcases hf with rfl | rfl | rfl <;> rfl
  rw [this] at hq
  simp only [eight, List.mem_cons, List.not_mem_nil, or_false] at hq
  rcases hq with rfl | rfl | rfl | rfl | rfl | rfl | rfl | rfl <;> norm_num

/-! ### two triangles -/

noncomputable def lower : Elem 1 (Fin 3 ⊕ Fin 3) ℝ := { geom := X, size := 3, shape := linear 1, dof := fun i => .inl (Fin.ofNat 3 i) }

noncomputable def upper : Elem 1 (Fin 3 ⊕ Fin 3) ℝ :=
  { geom := fun d => 1 - X d, size := 3, shape := linear 1, dof := fun i => .inr (Fin.ofNat 3 i) }

noncomputable def pairFace (e : Elem 1 (Fin 3 ⊕ Fin 3) ℝ) (k : Fin 2) : FemFace 1 (Fin 3 ⊕ Fin 3) ℝ :=
  { s1 := ⟨e, some k, Equiv.swap 0 1⟩, s2 := none, rule := eight, W := fun _ => 1 }

/-- The unit square cut along its diagonal. -/
noncomputable def pairMesh : Fem 1 (Fin 3 ⊕ Fin 3) ℝ :=
  { els := [(lower, midpoints), (upper, midpoints)]
    interior := [(none, { s1 := ⟨lower, none, 1⟩, s2 := some ⟨upper, none, Equiv.swap 0 1⟩, rule := eight, W := fun _ => √2 })]
    bdr := [(some .PEC, pairFace lower 0), (some .SMA, pairFace lower 1), (some .PMC, pairFace upper 0), (some .PEC, pairFace upper 1)]
    alpha := 1
    Minv := fun _ => 1
    Msig := 0 }

example : Simplicial pairMesh 1 1 := by
  obtain ⟨b0, b1⟩ := bary1
  refine ⟨by omega, le_rfl, le_rfl, ?_, ?_, ?_, ?_, ?_, ?_, ?_⟩
  · intro e he d
    simp only [pairMesh, List.mem_cons, List.not_mem_nil, or_false] at he
    rcases he with rfl | rfl
    · simp [lower]
    · exact degree_sub_le (by simp) (by simp)
  · intro e he i
    simp only [pairMesh, List.mem_cons, List.not_mem_nil, or_false] at he
    rcases he with rfl | rfl <;> exact linear_degree 1 i
  · change ([(lower, none), (upper, none), (lower, some 0), (lower, some 1), (upper, some 0), (upper, some 1)] :
      List (Elem 1 (Fin 3 ⊕ Fin 3) ℝ × Option (Fin 2))).Perm
      [(lower, none), (lower, some 0), (lower, some 1), (upper, none), (upper, some 0), (upper, some 1)]
    exact .cons _ (List.perm_middle (l₁ := [(lower, some 0), (lower, some 1)])).symm
  · intro f hf
    simp only [Spec.faces, pairMesh, List.map_nil, List.nil_append, List.map_cons, List.cons_append, List.mem_cons, List.not_mem_nil, or_false] at hf
    rcases hf with rfl | rfl | rfl | rfl | rfl <;> simp [Outward, normal, refSide_jac, pairFace, loc, refNormal, finRange2, b0, b1]
  · intro f hf s hs
    simp only [Spec.faces, pairMesh, List.map_nil, List.nil_append, List.map_cons, List.cons_append, List.mem_cons, List.not_mem_nil, or_false] at hf
    rcases hf with rfl | rfl | rfl | rfl | rfl
    · have hs : s = ⟨upper, none, Equiv.swap 0 1⟩ := by simpa using hs.symm
      subst hs
      refine ⟨fun d => ?_, ?_⟩
      · fin_cases d <;> simp [Side.restrict, lower, upper, loc, b0, b1]
      · simp [normal, refSide_jac, loc, refNormal, finRange2, b0, b1]
    all_goals simp [pairFace] at hs
  · intro e he
    simp only [pairMesh, List.mem_cons, List.not_mem_nil, or_false] at he
    rcases he with rfl | rfl <;> exact exact_mono midpoints_exact (by decide)
  · intro f hf
    simp only [Spec.faces, pairMesh, List.map_nil, List.nil_append, List.map_cons, List.cons_append, List.mem_cons, List.not_mem_nil, or_false] at hf
    rcases hf with rfl | rfl | rfl | rfl | rfl <;> exact exact_mono eight_exact (by decide)

/-! ### quadratures for the quadrilaterals -/

example : ∃ u : State (Fin 4) ℝ, 0 < energyRate (fun _ => 1) u (globalMult (quadProb (bulge 1) (tensor gauss2) eight (bulgeW 1) fun _ => 1) u) :=
  C141_grows_fails 1 zero_lt_one eight (exact_mono eight_exact (by decide))

example : ¬SBP (mixedProb (ι := Fin 4 ⊕ Fin 3) { geom := ![1 + X 0, X 1], size := 3, shape := linear 1, dof := fun i => .inr (Fin.ofNat 3 i) }
    (square fun i => .inl (Fin.ofNat 4 i)) midpoints eight (fun _ _ => 1) (fun _ => 0) [] fun _ => 1) := by
  refine C141_mixed_fails 2 _ midpoints_exact _ (exact_mono eight_exact (by decide)) _ ?_ _ ?_ [] (by simp) _ _ _
  · intro i hi j hj h
    interval_cases i <;> interval_cases j <;> first | rfl | (exfalso; revert h; decide)
  · intro i j _
    simp

example : ¬SBP (hexProb (brick 1) (tensor3 gauss2) [(751 / 17280, 0), (3577 / 17280, 1 / 7), (1323 / 17280, 2 / 7), (2989 / 17280, 3 / 7),
    (2989 / 17280, 4 / 7), (1323 / 17280, 5 / 7), (3577 / 17280, 6 / 7), (751 / 17280, 1)] (fun _ _ => 1) fun _ => 1) :=
  (C141_cube_fails 1 one_ne_zero _ (exact_mono eight_exact (by decide)) _ _).2

end Dgtd.Galerkin.Case

namespace Dgtd.Galerkin
open MvPolynomial Spec Dgtd.Op Case

set_option linter.unusedSimpArgs false in
/-- The way the theorems ask a face to run exists on every element: on a line every end is right as it is, in two and three dimensions every
face of every element can be run along so that the normal points out. -/
theorem C141_turns {ι : Type} : (∀ s : Side 0 ι ℝ, Outward s) ∧ (∀ (e : Elem 1 ι ℝ) face, ∃ turn, Outward ⟨e, face, turn⟩) ∧
    ∀ (e : Elem 2 ι ℝ) face, ∃ turn, Outward ⟨e, face, turn⟩ := by
  obtain ⟨b0, b1, b2⟩ := bary2
  obtain ⟨c0, c1⟩ := bary1
  obtain ⟨s1, s2, s3, s4, s5, s6⟩ := swaps
  refine ⟨fun ⟨e, face, turn⟩ => ?_, fun e face => ?_, fun e face => ?_⟩
  · have ht : turn 0 = 0 := Subsingleton.elim (α := Fin 1) _ _
    have hb : (bary 0 : Poly 0 ℝ) = 1 := by change (1 - ∑ j, X j : Poly 0 ℝ) = 1; simp
    have hr : List.finRange (0 + 1) = [0] := rfl
    rcases face with _ | k
    · simp only [Outward, normal, refSide, loc, hr, refNormal, List.map_cons, List.map_nil, ht, hb]
      simp; ring
    · obtain rfl : k = 0 := Subsingleton.elim (α := Fin 1) _ _
      simp [Outward, normal, refSide, loc, hr, refNormal]
  · rcases face with _ | k
    · exact ⟨1, by simp [Outward, normal, refSide_jac, loc, refNormal, finRange2, c0, c1]⟩
    · fin_cases k
      · exact ⟨Equiv.swap 0 1, by simp [Outward, normal, refSide_jac, loc, refNormal, finRange2, c0, c1]⟩
      · exact ⟨Equiv.swap 0 1, by simp [Outward, normal, refSide_jac, loc, refNormal, finRange2, c0, c1]⟩
  · rcases face with _ | k
    · exact ⟨1, by simp [Outward, normal, refSide_jac, loc, refNormal, finRange3, pd2, b0, b1, b2]⟩
    · fin_cases k
      · exact ⟨Equiv.swap 1 2, by simp [Outward, normal, refSide_jac, loc, refNormal, finRange3, pd2, b0, b1, b2, s1, s2, s3, s4, s5, s6]⟩
      · exact ⟨Equiv.swap 0 1, by simp [Outward, normal, refSide_jac, loc, refNormal, finRange3, pd2, b0, b1, b2, s1, s2, s3, s4, s5, s6]⟩
      · exact ⟨Equiv.swap 0 2, by simp [Outward, normal, refSide_jac, loc, refNormal, finRange3, pd2, b0, b1, b2, s1, s2, s3, s4, s5, s6]⟩
end Dgtd.Galerkin
