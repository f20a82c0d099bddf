/-
C146: a mesh of a quadrilateral and a triangle that meets the hypotheses.
-/
import Verif.Props.Straight
import Verif.Props.GalerkinMassCase

set_option linter.unusedSectionVars false
set_option linter.unusedSimpArgs false

namespace Dgtd.Straight.Case
open MvPolynomial Spec Dgtd.Op Dgtd.Op.Spec
open Dgtd.Galerkin (Poly Elem Rule tensor bilinear bary)
open Dgtd.Galerkin.Case (eight eight_exact midpoints midpoints_exact linear linear_degree bary1 finRange2 pd2)
open Dgtd.Config (Material)

/-- The points of `eight` with their weights. -/
noncomputable def eight' : List (ℝ × ℝ) :=
  [(751 / 17280, 0), (3577 / 17280, 1 / 7), (1323 / 17280, 2 / 7), (2989 / 17280, 3 / 7), (2989 / 17280, 4 / 7), (1323 / 17280, 5 / 7),
    (3577 / 17280, 6 / 7), (751 / 17280, 1)]

lemma square_exact : Exact .box 7 (tensor eight') := by
  refine (C146_product eight' 7 fun a ha => ?_).1
  interval_cases a <;> simp [eight'] <;> norm_num

lemma line_exact {N : Nat} (sh : Shape) (h : N ≤ 7) : Exact sh N eight := by
  have hs : Exact .simplex N eight := Galerkin.exact_mono eight_exact h
  cases sh with
  | simplex => exact hs
  | box =>
    intro q hq
    rw [hs q (order_one (by omega) hq .simplex), ← intl_eq, ← intl_eq, intl_one (by omega) .simplex .box]

/-- The quadrilateral with corners (0,0), (1,0), (1,2), (0,1). -/
noncomputable def quad : Elem 1 (Fin 4 ⊕ Fin 3) ℝ :=
  { geom := ![X 0, X 1 * (1 + X 0)], size := 4, shape := bilinear, dof := fun i => .inl (Fin.ofNat 4 i) }

/-- The triangle with corners (1,0), (2,0), (1,2). -/
noncomputable def tri : Elem 1 (Fin 4 ⊕ Fin 3) ℝ :=
  { geom := ![1 + X 0, X 1 + X 1], size := 3, shape := linear 1, dof := fun i => .inr (Fin.ofNat 3 i) }

noncomputable def wall (e : Elem 1 (Fin 4 ⊕ Fin 3) ℝ) (pl : Place 1) : MeshFace 1 (Fin 4 ⊕ Fin 3) := { s1 := ⟨e, pl⟩, s2 := none, rule := eight }

noncomputable def mesh : Setup 1 (Fin 4 ⊕ Fin 3) :=
  { cells := [⟨⟨quad, 3, tensor eight', tensor eight'⟩, .box⟩, ⟨⟨tri, 1, midpoints, midpoints⟩, .simplex⟩]
    interior := [(none, { s1 := ⟨quad, .box 0 true 1 fun _ => false⟩, s2 := some ⟨tri, .simplex (some 0) 1⟩, rule := eight })]
    bdr := [(some .PEC, wall quad (.box 0 false 1 fun _ => true)), (some .SMA, wall quad (.box 1 true 1 fun _ => true)),
      (some .PMC, wall quad (.box 1 false 1 fun _ => false)), (some .SMA, wall tri (.simplex none 1)),
      (some .PEC, wall tri (.simplex (some 1) (Equiv.swap 0 1)))]
    alpha := 1 }

lemma mesh_cells {P : Cell 1 (Fin 4 ⊕ Fin 3) → Prop} (h1 : P ⟨⟨quad, 3, tensor eight', tensor eight'⟩, .box⟩)
    (h2 : P ⟨⟨tri, 1, midpoints, midpoints⟩, .simplex⟩) : ∀ c ∈ mesh.cells, P c := by
  intro c hc
  simp only [mesh, List.mem_cons, List.not_mem_nil, or_false] at hc
  rcases hc with rfl | rfl
  · exact h1
  · exact h2

lemma mesh_rule : ∀ f ∈ faces mesh, f.rule = eight := by
  intro f hf
  simp only [faces, mesh, List.map_cons, List.map_nil, List.cons_append, List.nil_append, List.mem_cons, List.not_mem_nil, or_false] at hf
  rcases hf with rfl | rfl | rfl | rfl | rfl | rfl <;> rfl

lemma quad_det : quad.jac.det = 1 + X 0 := by
  rw [Matrix.det_fin_two]
  simp [quad, Elem.jac, pd2]

lemma tri_det : tri.jac.det = 1 + 1 := by
  rw [Matrix.det_fin_two]
  simp [tri, Elem.jac, pd2]

lemma degree_X (i j : Fin 2) : degreeOf j (X i : Poly 2 ℝ) ≤ if i = j then 1 else 0 := by
  rw [degreeOf_X]
  split <;> split <;> simp_all

lemma degree_add (i j : Fin 2) : degreeOf j (1 + X i : Poly 2 ℝ) ≤ if i = j then 1 else 0 :=
  (degreeOf_add_le j _ _).trans (max_le (by simp) (degree_X i j))

lemma degree_sub (i j : Fin 2) : degreeOf j (1 - X i : Poly 2 ℝ) ≤ if i = j then 1 else 0 := by
  rw [sub_eq_add_neg]
  refine (degreeOf_add_le j _ _).trans (max_le (by simp) ?_)
  rw [degreeOf_neg]
  exact degree_X i j

lemma degree_two {a b : Poly 2 ℝ} (ha : ∀ j, degreeOf j a ≤ if 0 = j then 1 else 0) (hb : ∀ j, degreeOf j b ≤ if 1 = j then 1 else 0) (j : Fin 2) :
    degreeOf j (a * b) ≤ 1 := by
  refine (degreeOf_mul_le j _ _).trans ((add_le_add (ha j) (hb j)).trans ?_)
  fin_cases j <;> simp

lemma bilinear_independent (a : Nat → ℝ) (h : ∑ i ∈ Finset.range 4, C (a i) * bilinear i = (0 : Poly 2 ℝ)) : ∀ i < 4, a i = 0 := by
  have key : ∀ x : Fin 2 → ℝ, a 0 * ((1 - x 0) * (1 - x 1)) + a 1 * (x 0 * (1 - x 1)) + a 2 * (x 0 * x 1) + a 3 * ((1 - x 0) * x 1) = 0 := by
    intro x
    have := congrArg (eval x) h
    simpa [Finset.sum_range_succ, bilinear] using this
  have h0 := key ![0, 0]
  have h1 := key ![1, 0]
  have h2 := key ![1, 1]
  have h3 := key ![0, 1]
  simp at h0 h1 h2 h3
  intro i hi
  interval_cases i <;> assumption

theorem mesh_valid : ValidMesh mesh 1 where
  dim := by omega
  order := le_rfl
  geom := by
    refine mesh_cells (fun d i => ?_) fun d => ?_
    · fin_cases d
      · change degreeOf i (X 0 : Poly 2 ℝ) ≤ 1
        rw [degreeOf_X]; split <;> omega
      · change degreeOf i (X 1 * (1 + X 0) : Poly 2 ℝ) ≤ 1
        rw [mul_comm]
        exact degree_two (degree_add 0) (degree_X 1) i
    · fin_cases d
      · change (1 + X 0 : Poly 2 ℝ).totalDegree ≤ 1
        refine (totalDegree_add _ _).trans ?_
        simp
      · change (X 1 + X 1 : Poly 2 ℝ).totalDegree ≤ 1
        refine (totalDegree_add _ _).trans ?_
        simp
  shape := by
    refine mesh_cells (fun i j => ?_) fun i => linear_degree 1 i
    change degreeOf j (bilinear i : Poly 2 ℝ) ≤ 1
    unfold bilinear
    split
    · exact degree_two (degree_sub 0) (degree_sub 1) j
    · exact degree_two (degree_X 0) (degree_sub 1) j
    · exact degree_two (degree_X 0) (degree_X 1) j
    · exact degree_two (degree_sub 0) (degree_X 1) j
    · simp
  cover := by
    change ([(quad, .box 0 true), (tri, .simplex (some 0)), (quad, .box 0 false), (quad, .box 1 true), (quad, .box 1 false), (tri, .simplex none),
      (tri, .simplex (some 1))] : List (Elem 1 (Fin 4 ⊕ Fin 3) ℝ × Key 1)).Perm
      [(quad, .box 0 true), (quad, .box 0 false), (quad, .box 1 true), (quad, .box 1 false), (tri, .simplex none), (tri, .simplex (some 0)),
        (tri, .simplex (some 1))]
    exact .cons _ (List.perm_middle (l₁ := ([(quad, .box 0 false), (quad, .box 1 true), (quad, .box 1 false), (tri, .simplex none)] :
      List (Elem 1 (Fin 4 ⊕ Fin 3) ℝ × Key 1)))).symm
  one := by
    obtain ⟨b0, b1⟩ := bary1
    intro f hf
    simp only [faces, mesh, List.map_cons, List.map_nil, List.cons_append, List.nil_append, List.mem_cons, List.not_mem_nil, or_false] at hf
    rcases hf with rfl | rfl | rfl | rfl | rfl | rfl <;>
      simp [Outward, normal, refSide_jac', wall, loc, Galerkin.loc, refNormal, Galerkin.Spec.refNormal, finRange2, b0, b1, ins20, ins21, coord, Place.key]
  two := by
    obtain ⟨b0, b1⟩ := bary1
    intro f hf s hs
    simp only [faces, mesh, List.map_cons, List.map_nil, List.cons_append, List.nil_append, List.mem_cons, List.not_mem_nil, or_false] at hf
    rcases hf with rfl | rfl | rfl | rfl | rfl | rfl
    · have hs : s = ⟨tri, .simplex (some 0) 1⟩ := by simpa using hs.symm
      subst hs
      refine ⟨fun d => ?_, ?_, fun h => absurd h (by decide)⟩
      · fin_cases d <;> simp [Side.restrict, quad, tri, loc, Galerkin.loc, b0, b1, ins20, coord]
        ring
      · simp [normal, refSide_jac', loc, Galerkin.loc, refNormal, Galerkin.Spec.refNormal, finRange2, b0, b1, Place.key]
    all_goals simp [wall] at hs
  volume := mesh_cells (fun q hq => square_exact q fun i => (hq i).trans (by decide)) (Galerkin.exact_mono midpoints_exact (by decide))
  surface := by
    intro f hf
    rw [mesh_rule f hf]
    simp only [faces, mesh, List.map_cons, List.map_nil, List.cons_append, List.nil_append, List.mem_cons, List.not_mem_nil, or_false] at hf
    rcases hf with rfl | rfl | rfl | rfl | rfl | rfl <;> exact line_exact _ (by decide)
  mass := mesh_cells (fun q hq => square_exact q fun i => (hq i).trans (by decide)) (Galerkin.exact_mono midpoints_exact (by decide))
  jacobian := by
    refine mesh_cells (fun x hx => ?_) fun x hx => ?_
    · rw [quad_det]
      have := (hx 0).1
      simp only [map_add, map_one, eval_X]
      linarith
    · rw [tri_det]
      simp
  independent := mesh_cells bilinear_independent Galerkin.Case.linear_independent
  dofs_nodup := by decide
  dofs_all := fun r => by
    change r ∈ ([.inl 0, .inl 1, .inl 2, .inl 3, .inr 0, .inr 1, .inr 2] : List (Fin 4 ⊕ Fin 3))
    rcases r with r | r <;> fin_cases r <;> simp
  inside := by
    intro f hf x hx
    rw [mesh_rule f hf] at hx
    have h : 0 ≤ x.2 0 ∧ x.2 0 ≤ 1 := by
      simp only [eight, List.mem_cons, List.not_mem_nil, or_false] at hx
      rcases hx with rfl | rfl | rfl | rfl | rfl | rfl | rfl | rfl <;> constructor <;> simp <;> try norm_num
    cases f.s1.place.key.shape
    · exact ⟨fun i => by rw [Subsingleton.elim i 0]; exact h.1, by rw [Fin.sum_univ_one]; exact h.2⟩
    · exact fun i => by rw [Subsingleton.elim i 0]; exact h
  bdr_cond := by
    intro q hq
    simp only [mesh, List.mem_cons, List.not_mem_nil, or_false] at hq
    rcases hq with rfl | rfl | rfl | rfl | rfl <;> simp
  bdr_one_side := by
    intro q hq
    simp only [mesh, List.mem_cons, List.not_mem_nil, or_false] at hq
    rcases hq with rfl | rfl | rfl | rfl | rfl <;> rfl
  no_sgbc := by
    intro q hq
    simp only [mesh, List.mem_cons, List.not_mem_nil, or_false] at hq
    subst hq
    simp

noncomputable def materials : List (Int × Material ℝ) := [(3, ⟨4, 2, 3⟩), (1, ⟨1, 1, 0⟩)]

theorem materials_valid : ValidMaterials mesh materials where
  keys := by simp [materials]
  pos := by simp [materials]
  eps := by simp [materials]
  mu := by simp [materials]
  sigma := by simp [materials]
  all := by
    refine mesh_cells ⟨_, rfl⟩ ⟨_, rfl⟩

lemma mesh_weights : ∀ f ∈ faces mesh, ∀ x ∈ f.rule, 0 ≤ x.1 := by
  intro f hf x hx
  rw [mesh_rule f hf] at hx
  simp only [eight, List.mem_cons, List.not_mem_nil, or_false] at hx
  rcases hx with rfl | rfl | rfl | rfl | rfl | rfl | rfl | rfl <;> norm_num

example : ∃ P M, mesh.prob materials = .ok P ∧ (∀ u, energy M u = fieldEnergy mesh materials u) ∧ ∀ u, energyRate M u (globalMult P u) ≤ 0 := by
  obtain ⟨P, M, h1, h2, h3, _⟩ := C146_stable mesh_valid materials materials_valid zero_le_one mesh_weights
  exact ⟨P, M, h1, h2, h3⟩

end Dgtd.Straight.Case
