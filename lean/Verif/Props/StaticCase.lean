/-
C175: cases that meet the hypotheses.
-/
import Verif.Props.Static
import Verif.Props.ChargeCase
import Verif.Props.StraightChargeCase

set_option linter.unusedSectionVars false
set_option linter.unusedSimpArgs false

namespace Dgtd.Galerkin.Case
open Spec Dgtd.Op Dgtd.Op.Spec Dgtd.Implicit
open Dgtd.TimeInt.Spec

/-- A static magnetic field on two triangles, with and without others. -/
example : ∃ F, pairSetup.fem pairMaterials = .ok F ∧ globalMult F.prob us = 0 :=
  C175_still pair_valid _ pair_materials pair_weights .H ramp ramp_testing (fun h => by cases h) us carries_ramp

example (j : ℝ → State (Fin 3 ⊕ Fin 3) ℝ) (q : Sdirk ℝ) (hi : Ideal33 q) :=
  C175_run pair_valid _ pair_materials zero_le_one pair_weights .H ramp ramp_testing (fun h => by cases h) us carries_ramp j q hi

example : us ≠ 0 := fun h => by
  have := congrFun (congrFun (congrFun h .H) 0) (.inr 1)
  simp [us, corners] at this

end Dgtd.Galerkin.Case

namespace Dgtd.Straight.Case
open MvPolynomial Spec Dgtd.Op Dgtd.Op.Spec
open Dgtd.Galerkin (Poly Elem)
open Dgtd.Galerkin.Spec (onElem materialOf Test gradient ddx)
open Dgtd.Galerkin.Case (midpoints)
open Dgtd.Implicit Dgtd.TimeInt.Spec

/-- An electric potential that is level in the conducting quadrilateral: `(x - 1) y` on the triangle. -/
noncomputable def rest : Test 1 (Fin 4 ⊕ Fin 3) := fun e => if e.size = 4 then 0 else (X 0 - 1) * X 1

lemma rest_quad : rest quad = 0 := by simp [rest, quad]
lemma rest_tri : rest tri = (X 0 - 1) * X 1 := by simp [rest, tri]

lemma rest_testing : Testing mesh' .E rest := by
  refine ⟨?_, ?_, ?_⟩
  · intro q hq _
    simp only [mesh', mesh, List.mem_cons, List.not_mem_nil, or_false] at hq
    subst hq
    refine ⟨_, rfl, fun x _ => ?_⟩
    unfold testAt
    rw [(pos_faces x).1, (pos_faces x).2.1]
    change eval _ (rest quad) = eval _ (rest tri)
    rw [rest_quad, rest_tri]
    simp
  · intro q hq c hc
    simp only [mesh', mesh, List.mem_cons, List.not_mem_nil, or_false] at hq
    subst hq; simp at hc
  · intro q hq c hc hh
    obtain ⟨a, _, rfl⟩ := List.mem_map.1 hq
    obtain rfl := Option.some.inj hc
    exact hh.elim

lemma rest_degree : ∀ c ∈ mesh'.cells, (rest c.e).totalDegree ≤ 2 := fun c _ => by
  unfold rest
  split
  · simp
  · refine (totalDegree_mul _ _).trans ?_
    have h1 : (X 0 - 1 : Poly 2 ℝ).totalDegree ≤ 1 := (totalDegree_sub _ _).trans (max_le (by simp) (by simp))
    rw [totalDegree_X]
    omega

/-- It stands still, and it is not zero. -/
example (j : ℝ → State (Fin 4 ⊕ Fin 3) ℝ) (q : Sdirk ℝ) (hi : Ideal33 q) : ∃ P A w, w ≠ 0 ∧ mesh'.prob materials = .ok P ∧
    (∀ u : State (Fin 4 ⊕ Fin 3) ℝ, A.mulVec (flat u) = flat (globalMult P u)) ∧
    ∀ (u : State (Fin 4 ⊕ Fin 3) ℝ) (o : TimeInt.Ode) (dts : List ℝ) (_ : ∀ dt ∈ dts, 0 ≤ dt) (t : ℝ), ∃ y c c',
      TimeInt.run q o (TimeInt.globalTdo A fun t => flat (j t)) dts (flat u) t fresh = some (flat y, t + dts.sum, c) ∧
      TimeInt.run q o (TimeInt.globalTdo A fun t => flat (j t)) dts (flat (u + w)) t fresh = some (flat (y + w), t + dts.sum, c') := by
  obtain ⟨w, hw⟩ := C167_held mesh_valid' mesh_complete .E rest rest_degree
  have hs : ∀ c ∈ mesh'.cells, (materialOf materials c.toCell).sigma ≠ 0 → ∀ d, ddx d (rest c.e) = 0 := by
    refine mesh_cells ?_ ?_
    · intro _ d
      change ddx d (rest quad) = 0
      rw [rest_quad]
      unfold ddx
      split <;> simp
    · exact fun h => absurd rfl h
  obtain ⟨P, A, e, hA, h⟩ := C175_run mesh_valid' materials ⟨materials_valid.keys, materials_valid.pos, materials_valid.eps, materials_valid.mu,
    materials_valid.sigma, materials_valid.all⟩ zero_le_one mesh_weights .E rest rest_testing (fun _ => hs) w hw j q hi
  refine ⟨P, A, w, fun h0 => ?_, e, hA, h⟩
  have hm : (⟨⟨tri, 1, midpoints, midpoints⟩, .simplex⟩ : Cell 1 (Fin 4 ⊕ Fin 3)) ∈ mesh'.cells := by simp [mesh', mesh]
  have hz := hw _ hm .E 1
  have := congrArg (eval ![(1 : ℝ), 0]) hz
  change eval _ (onElem tri (w .E 1)) = eval _ (bind₁ tri.geom (gradient .E rest tri .E 1)) at this
  rw [h0] at this
  have hg : gradient .E rest tri .E 1 = X 0 - 1 := by
    simp [gradient, rest_tri, ddx, pderiv_X]
  rw [hg] at this
  simp [onElem, tri] at this

end Dgtd.Straight.Case
