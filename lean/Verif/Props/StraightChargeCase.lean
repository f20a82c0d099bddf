/-
C167: cases that meet the hypotheses, on the mesh of a quadrilateral and a triangle of C146.
-/
import Verif.Props.StraightCharge
import Verif.Props.StraightFieldCase

set_option linter.unusedSectionVars false
set_option linter.unusedSimpArgs false

namespace Dgtd.Straight.Case
open MvPolynomial Spec Dgtd.Op Dgtd.Op.Spec
open Dgtd.Galerkin (Poly Elem Rule tensor bilinear)
open Dgtd.Galerkin.Spec (onElem materialOf Test Holds gradient ddx)
open Dgtd.Galerkin.Case (eight midpoints bary1 linear_span)
open Dgtd.Implicit Dgtd.TimeInt.Spec
open Dgtd.Config (Material)

lemma mesh_complete : ∀ c ∈ mesh.cells, ∀ q : Poly 2 ℝ, Order c.shape 1 q → ∃ a : Nat → ℝ, q = ∑ i ∈ Finset.range c.e.size, C (a i) * c.e.shape i :=
  mesh_cells (fun q hq => Cavity.bilinear_span q hq) fun q hq => linear_span q hq

lemma pos_faces (x : Fin 1 → ℝ) :
    pos (⟨quad, .box 0 true 1 fun _ => false⟩ : Side 1 (Fin 4 ⊕ Fin 3)) x = ![1, x 0 * 2] ∧
    pos (⟨tri, .simplex (some 0) 1⟩ : Side 1 (Fin 4 ⊕ Fin 3)) x = ![1, x 0 * 2] ∧
    pos (wall quad (.box 1 true 1 fun _ => true)).s1 x = ![1 - x 0, 2 - x 0] ∧
    pos (wall quad (.box 1 false 1 fun _ => false)).s1 x = ![x 0, 0] ∧
    pos (wall tri (.simplex none 1)).s1 x = ![2 - x 0, 2 * x 0] := by
  obtain ⟨b0, b1⟩ := bary1
  refine ⟨?_, ?_, ?_, ?_, ?_⟩ <;> funext k <;> fin_cases k <;>
    simp [pos, Side.restrict, quad, tri, wall, loc, Galerkin.loc, ins20, ins21, coord, b0, b1] <;> first | (left; norm_num) | ring

open scoped Classical in
/-- A test function for magnetic charge: `y (y - 1 - x)` on the quadrilateral, `y (y + 2 x - 4)` on the triangle. -/
noncomputable def dome : Test 1 (Fin 4 ⊕ Fin 3) := fun e => if e.size = 4 then X 1 * (X 1 - 1 - X 0) else X 1 * (X 1 + (X 0 + X 0) - C 4)

lemma dome_quad : dome quad = X 1 * (X 1 - 1 - X 0) := by simp [dome, quad]
lemma dome_tri : dome tri = X 1 * (X 1 + (X 0 + X 0) - C 4) := by simp [dome, tri]

lemma dome_testing : Testing mesh .H dome := by
  refine ⟨?_, ?_, ?_⟩
  · intro q hq _
    simp only [mesh, List.mem_cons, List.not_mem_nil, or_false] at hq
    subst hq
    refine ⟨_, rfl, fun x _ => ?_⟩
    unfold testAt
    rw [(pos_faces x).1, (pos_faces x).2.1]
    change eval _ (dome quad) = eval _ (dome tri)
    rw [dome_quad, dome_tri]
    simp only [map_mul, map_sub, map_add, eval_X, eval_C, map_one]
    change x 0 * 2 * (x 0 * 2 - 1 - 1) = x 0 * 2 * (x 0 * 2 + (1 + 1) - 4)
    ring
  · intro q hq c hc
    simp only [mesh, List.mem_cons, List.not_mem_nil, or_false] at hq
    subst hq; simp at hc
  · intro q hq c hc hh
    simp only [mesh, List.mem_cons, List.not_mem_nil, or_false] at hq
    rcases hq with rfl | rfl | rfl | rfl | rfl
    · obtain rfl := Option.some.inj hc
      exact hh.elim
    · refine ⟨0, fun x _ => ?_⟩
      unfold testAt
      rw [(pos_faces x).2.2.1]
      change eval _ (dome quad) = _
      rw [dome_quad]
      simp
      right; ring
    · refine ⟨0, fun x _ => ?_⟩
      unfold testAt
      rw [(pos_faces x).2.2.2.1]
      change eval _ (dome quad) = _
      rw [dome_quad]; simp
    · refine ⟨0, fun x _ => ?_⟩
      unfold testAt
      rw [(pos_faces x).2.2.2.2]
      change eval _ (dome tri) = _
      rw [dome_tri]
      simp
      right; ring
    · obtain rfl := Option.some.inj hc
      exact hh.elim

lemma four_degree : ∀ c ∈ mesh.cells, (dome c.e).totalDegree ≤ 2 := by
  refine mesh_cells ?_ ?_
  · change (dome quad).totalDegree ≤ 2
    rw [dome_quad]
    refine (totalDegree_mul _ _).trans ?_
    have h1 : (X 1 - 1 - X 0 : Poly 2 ℝ).totalDegree ≤ 1 :=
      (totalDegree_sub _ _).trans (max_le ((totalDegree_sub _ _).trans (max_le (by simp) (by simp))) (by simp))
    rw [totalDegree_X]
    omega
  · change (dome tri).totalDegree ≤ 2
    rw [dome_tri]
    refine (totalDegree_mul _ _).trans ?_
    have h1 : (X 1 + (X 0 + X 0) - C 4 : Poly 2 ℝ).totalDegree ≤ 1 :=
      (totalDegree_sub _ _).trans (max_le ((totalDegree_add _ _).trans (max_le (by simp) ((totalDegree_add _ _).trans (by simp)))) (by simp))
    rw [totalDegree_X]
    omega

/-- Magnetic charge stays. -/
example : ∃ P, mesh.prob materials = .ok P ∧ ∀ u, charge mesh materials .H dome (globalMult P u) = 0 := by
  obtain ⟨P, e, h⟩ := C167_complete mesh_valid materials materials_valid mesh_weights mesh_complete
  exact ⟨P, e, fun u => (h dome four_degree u).2 dome_testing⟩

example (q : Sdirk ℝ) (hi : Ideal33 q) : ∃ P A, mesh.prob materials = .ok P ∧ (∀ u : State (Fin 4 ⊕ Fin 3) ℝ, A.mulVec (flat u) = flat (globalMult P u)) ∧
    ∀ (u : State (Fin 4 ⊕ Fin 3) ℝ) (o : TimeInt.Ode) (dts : List ℝ) (_ : ∀ dt ∈ dts, 0 ≤ dt) (t : ℝ), ∃ y c,
      TimeInt.run q o (TimeInt.globalTdo A fun _ => flat 0) dts (flat u) t fresh = some (flat y, t + dts.sum, c) ∧
        charge mesh materials .H dome y = charge mesh materials .H dome u := by
  obtain ⟨w, hw⟩ := C167_held mesh_valid mesh_complete .H dome four_degree
  exact C167_run mesh_valid materials materials_valid zero_le_one mesh_weights .H dome dome_testing w hw (.inl rfl) (fun _ => 0)
    (fun t => by rw [charge_form mesh_valid _ hw]; simp) q hi

/-- There are fields with magnetic charge. -/
example : ∃ u, charge mesh materials .H dome u < 0 := by
  obtain ⟨w, hw⟩ := C167_held mesh_valid mesh_complete .H dome four_degree
  refine ⟨w, ?_⟩
  rw [charge_form mesh_valid _ hw]
  have hp := fieldEnergy_pos mesh_valid materials materials_valid w fun h => by
    have hm : (⟨⟨quad, 3, tensor eight', tensor eight'⟩, .box⟩ : Cell 1 (Fin 4 ⊕ Fin 3)) ∈ mesh.cells := by simp [mesh]
    have hz := hw _ hm .H 1
    have := congrArg (eval (fun _ => (0 : ℝ))) hz
    change eval _ (onElem quad (w .H 1)) = eval _ (bind₁ quad.geom (gradient .H dome quad .H 1)) at this
    rw [h] at this
    have hg : gradient .H dome quad .H 1 = X 1 - 1 - X 0 + X 1 := by
      simp [gradient, dome_quad, ddx, pderiv_X]
      ring
    rw [hg] at this
    simp [onElem, quad] at this
  rw [← energy_eq mesh_valid] at hp
  have hE : ∑ d, w .E d ⬝ᵥ (massOf mesh materials .E).mulVec (w .E d) = 0 :=
    other_form mesh_valid _ hw (f' := .E) (by decide) (w .E)
  unfold energy at hp
  rw [Finset.sum_add_distrib, hE] at hp
  linarith

/-! ### electric charge between magnetic walls -/

/-- The mesh with magnetic walls all around. -/
noncomputable def mesh' : Setup 1 (Fin 4 ⊕ Fin 3) := { mesh with bdr := mesh.bdr.map fun q => (some .PMC, q.2) }

lemma faces' : faces mesh' = faces mesh := rfl

lemma mesh_valid' : ValidMesh mesh' 1 :=
  { mesh_valid with
    bdr_cond := fun q hq => by obtain ⟨a, _, rfl⟩ := List.mem_map.1 hq; simp
    bdr_one_side := fun q hq => by obtain ⟨a, ha, rfl⟩ := List.mem_map.1 hq; exact mesh_valid.bdr_one_side a ha }

noncomputable def slope : Test 1 (Fin 4 ⊕ Fin 3) := fun _ => X 0 * X 1

lemma slope_testing : Testing mesh' .E slope := by
  refine ⟨?_, ?_, ?_⟩
  · intro q hq _
    simp only [mesh', mesh, List.mem_cons, List.not_mem_nil, or_false] at hq
    subst hq
    refine ⟨_, rfl, fun x _ => ?_⟩
    unfold testAt
    rw [(pos_faces x).1, (pos_faces x).2.1]
    rfl
  · intro q hq c hc
    simp only [mesh', mesh, List.mem_cons, List.not_mem_nil, or_false] at hq
    subst hq; simp at hc
  · intro q hq c hc hh
    obtain ⟨a, _, rfl⟩ := List.mem_map.1 hq
    obtain rfl := Option.some.inj hc
    exact hh.elim

lemma slope_degree : ∀ c ∈ mesh'.cells, (slope c.e).totalDegree ≤ 2 := fun c _ => by
  unfold slope
  refine (totalDegree_mul _ _).trans ?_
  rw [totalDegree_X, totalDegree_X]

/-- Charge that currents in the conductor move; and they do move some. -/
example : ∃ P w, mesh'.prob materials = .ok P ∧ (∀ u, charge mesh' materials .E slope (globalMult P u) = conduction mesh' materials slope u) ∧
    0 < conduction mesh' materials slope w := by
  obtain ⟨P, e, h⟩ := C167_complete mesh_valid' materials ⟨materials_valid.keys, materials_valid.pos, materials_valid.eps, materials_valid.mu,
    materials_valid.sigma, materials_valid.all⟩ mesh_weights mesh_complete
  obtain ⟨w, hw⟩ := C167_held mesh_valid' mesh_complete .E slope slope_degree
  refine ⟨P, w, e, fun u => (h slope slope_degree u).1 slope_testing, ?_⟩
  have hm : (⟨⟨quad, 3, tensor eight', tensor eight'⟩, .box⟩ : Cell 1 (Fin 4 ⊕ Fin 3)) ∈ mesh'.cells := by simp [mesh', mesh]
  have hc : ∀ c ∈ mesh'.cells, pairing c (slope c.e) (w .E) =
      ∑ d : Dir, integral c.shape (onElem c.e (w .E d) * onElem c.e (w .E d) * c.e.jac.det) := by
    intro c hc
    refine Finset.sum_congr rfl fun d _ => ?_
    rw [hw c hc]
    simp [gradient]
  have h1 : 0 < pairing ⟨⟨quad, 3, tensor eight', tensor eight'⟩, .box⟩ (slope quad) (w .E) := by
    have e := hc _ hm
    change pairing _ (slope quad) (w .E) = _ at e
    rw [e]
    refine Finset.sum_pos' (fun d _ => sq_nonneg' mesh_valid' hm _) ⟨1, Finset.mem_univ _, ?_⟩
    refine mass_pos mesh_valid'.dim _ (mesh_valid'.jacobian _ hm) _ fun hz => ?_
    have hq := hw _ hm .E 1
    rw [hz] at hq
    have := congrArg (eval (fun _ => (1 : ℝ))) hq
    change eval _ (0 : Poly 2 ℝ) = eval _ (bind₁ quad.geom (gradient .E slope quad .E 1)) at this
    simp [gradient, slope, ddx, pderiv_X, quad] at this
  have e : conduction mesh' materials slope w = 3 * pairing ⟨⟨quad, 3, tensor eight', tensor eight'⟩, .box⟩ (slope quad) (w .E) +
      (0 * pairing ⟨⟨tri, 1, midpoints, midpoints⟩, .simplex⟩ (slope tri) (w .E) + 0) := rfl
  rw [e]
  linarith

end Dgtd.Straight.Case
