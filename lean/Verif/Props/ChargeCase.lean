/-
C145: cases that meet the hypotheses, on the unit square of two triangles, the upper one conducting.
-/
import Verif.Props.Charge
import Verif.Props.ConvergenceCase

namespace Dgtd.Galerkin.Case
open MvPolynomial Spec Dgtd.Op Dgtd.Op.Spec Dgtd.Implicit
open Dgtd.TimeInt.Spec
open Dgtd.Config (Material)

lemma pos_faces (x : Fin 1 → ℝ) :
    pos (⟨lower, none, 1⟩ : Side 1 (Fin 3 ⊕ Fin 3) ℝ) x = ![1 - x 0, x 0] ∧
    pos (⟨upper, none, Equiv.swap 0 1⟩ : Side 1 (Fin 3 ⊕ Fin 3) ℝ) x = ![1 - x 0, x 0] ∧
    pos (outer lower 0).s1 x = ![0, 1 - x 0] ∧ pos (outer lower 1).s1 x = ![x 0, 0] ∧
    pos (outer upper 0).s1 x = ![1, x 0] ∧ pos (outer upper 1).s1 x = ![1 - x 0, 1] := by
  obtain ⟨b0, b1⟩ := bary1
  refine ⟨?_, ?_, ?_, ?_, ?_, ?_⟩ <;> funext k <;> fin_cases k <;>
    simp [pos, Side.restrict, lower, upper, outer, loc, b0, b1]

open scoped Classical in
/-- A test function for electric charge: `xy` below the diagonal, `y (1 - y)` above. -/
noncomputable def bump : Test 1 (Fin 3 ⊕ Fin 3) := fun e => if e = lower then X 0 * X 1 else X 1 * (1 - X 1)

lemma bump_lower : bump lower = X 0 * X 1 := by simp [bump]
lemma bump_upper : bump upper = X 1 * (1 - X 1) := by simp [bump, upper_ne]

lemma bump_testing : Testing pairSetup .E bump := by
  refine ⟨?_, ?_, ?_⟩
  · intro q hq _
    simp only [pairSetup, List.mem_cons, List.not_mem_nil, or_false] at hq
    subst hq
    refine ⟨_, rfl, fun x _ => ?_⟩
    unfold testAt
    rw [(pos_faces x).1, (pos_faces x).2.1]
    change eval _ (bump lower) = eval _ (bump upper)
    rw [bump_lower, bump_upper]
    simp
    ring
  · intro q hq c hc
    simp only [pairSetup, List.mem_cons, List.not_mem_nil, or_false] at hq
    subst hq; simp at hc
  · intro q hq c hc hh
    simp only [pairSetup, List.mem_cons, List.not_mem_nil, or_false] at hq
    rcases hq with rfl | rfl | rfl | rfl
    · refine ⟨0, fun x _ => ?_⟩
      unfold testAt
      rw [(pos_faces x).2.2.1]
      change eval _ (bump lower) = _
      rw [bump_lower]; simp
    · refine ⟨0, fun x _ => ?_⟩
      unfold testAt
      rw [(pos_faces x).2.2.2.1]
      change eval _ (bump lower) = _
      rw [bump_lower]; simp
    · obtain rfl := Option.some.inj hc
      exact hh.elim
    · refine ⟨0, fun x _ => ?_⟩
      unfold testAt
      rw [(pos_faces x).2.2.2.2.2]
      change eval _ (bump upper) = _
      rw [bump_upper]; simp

/-- Its gradient. -/
noncomputable def ga : FieldT → Dir → Poly 2 ℝ
  | .E => ![X 1, X 0, 0]
  | .H => ![0, 0, 0]
noncomputable def gb : FieldT → Dir → Poly 2 ℝ
  | .E => ![0, 1 - (X 1 + X 1), 0]
  | .H => ![0, 0, 0]

noncomputable def ug : State (Fin 3 ⊕ Fin 3) ℝ := corners
  (fun | .E => ![![0, 0, 1], ![0, 1, 0], ![0, 0, 0]] | .H => ![![0, 0, 0], ![0, 0, 0], ![0, 0, 0]])
  (fun | .E => ![![0, 0, 0], ![-1, -1, 1], ![0, 0, 0]] | .H => ![![0, 0, 0], ![0, 0, 0], ![0, 0, 0]])

lemma carries_of {φ : Test 1 (Fin 3 ⊕ Fin 3)} {f : FieldT} {a b : FieldT → Dir → Poly 2 ℝ} {u : State (Fin 3 ⊕ Fin 3) ℝ}
    (h : Carries pairSetup (parts a b) u) (ha : gradient f φ lower = a) (hb : gradient f φ upper = b) : Carries pairSetup (gradient f φ) u := by
  intro c hc g d
  rw [h c hc]
  simp only [pairSetup, List.mem_cons, List.not_mem_nil, or_false] at hc
  rcases hc with rfl | rfl
  · change bind₁ _ (parts a b lower g d) = bind₁ _ (gradient f φ lower g d)
    rw [parts_lower, ha]
  · change bind₁ _ (parts a b upper g d) = bind₁ _ (gradient f φ upper g d)
    rw [parts_upper, hb]

lemma carries_bump : Carries pairSetup (gradient .E bump) ug := by
  refine carries_of (a := ga) (b := gb) ?_ ?_ ?_
  · refine carries_pair ?_ ?_
    · intro f d; cases f <;> fin_cases d <;> simp [ga]
    · intro f d; cases f <;> fin_cases d <;> simp [gb]
      ring
  · funext g d
    cases g <;> fin_cases d <;> simp [gradient, bump_lower, ga, ddx, pderiv_X]
  · funext g d
    cases g <;> fin_cases d <;> simp [gradient, bump_upper, gb, ddx, pderiv_X]
    ring

/-- Charge that currents in the conductor move. -/
example : ∃ F, pairSetup.fem pairMaterials = .ok F ∧ ∀ u, charge pairSetup pairMaterials .E bump (globalMult F.prob u) =
    conduction pairSetup pairMaterials bump u := by
  obtain ⟨F, e, h⟩ := C145_continuity pair_valid _ pair_materials pair_weights
  exact ⟨F, e, fun u => (h bump ug u).1 bump_testing carries_bump⟩

/-- The currents do move some. -/
example : 0 < conduction pairSetup pairMaterials bump ug := by
  have hc : ∀ c ∈ pairSetup.cells, pairing c.e (bump c.e) (ug .E) =
      ∑ d : Dir, integral 2 (onElem c.e (ug .E d) * onElem c.e (ug .E d) * c.e.jac.det) := by
    intro c hc
    refine Finset.sum_congr rfl fun d _ => ?_
    rw [carries_bump c hc]
    simp [gradient]
  have h0 : ∀ c ∈ pairSetup.cells, 0 ≤ pairing c.e (bump c.e) (ug .E) := fun c hc' => by
    rw [hc c hc']
    exact Finset.sum_nonneg fun d _ => sq_nonneg' pair_valid hc' _
  have h1 : 0 < pairing upper (bump upper) (ug .E) := by
    have hm : (⟨upper, 3, midpoints, midpoints⟩ : Cell 1 (Fin 3 ⊕ Fin 3)) ∈ pairSetup.cells := by simp [pairSetup]
    have e := hc _ hm
    change pairing upper (bump upper) (ug .E) = _ at e
    rw [e]
    refine Finset.sum_pos' (fun d _ => sq_nonneg' pair_valid hm _) ⟨1, Finset.mem_univ _, ?_⟩
    refine mass_pos pair_valid.simplicial.dim _ (pair_valid.jacobian _ hm) _ fun hz => ?_
    rw [carries_bump _ hm] at hz
    have := congrArg (eval (fun _ => (0 : ℝ))) hz
    change eval _ (bind₁ (fun d => 1 - X d) (gradient .E bump upper .E 1)) = _ at this
    simp [gradient, bump_upper, ddx, pderiv_X] at this
  have e : conduction pairSetup pairMaterials bump ug = 0 * pairing lower (bump lower) (ug .E) + (3 * pairing upper (bump upper) (ug .E) + 0) := rfl
  rw [e]
  linarith

/-- A test function for magnetic charge: `y (x - 1)`. -/
noncomputable def ramp : Test 1 (Fin 3 ⊕ Fin 3) := fun _ => X 1 * (X 0 - 1)

lemma ramp_testing : Testing pairSetup .H ramp := by
  refine ⟨?_, ?_, ?_⟩
  · intro q hq _
    simp only [pairSetup, List.mem_cons, List.not_mem_nil, or_false] at hq
    subst hq
    refine ⟨_, rfl, fun x _ => ?_⟩
    unfold testAt
    rw [(pos_faces x).1, (pos_faces x).2.1]
    rfl
  · intro q hq c hc
    simp only [pairSetup, List.mem_cons, List.not_mem_nil, or_false] at hq
    subst hq; simp at hc
  · intro q hq c hc hh
    simp only [pairSetup, List.mem_cons, List.not_mem_nil, or_false] at hq
    rcases hq with rfl | rfl | rfl | rfl
    · obtain rfl := Option.some.inj hc
      exact hh.elim
    · refine ⟨0, fun x _ => ?_⟩
      unfold testAt
      rw [(pos_faces x).2.2.2.1]
      simp [ramp]
    · refine ⟨0, fun x _ => ?_⟩
      unfold testAt
      rw [(pos_faces x).2.2.2.2.1]
      simp [ramp]
    · obtain rfl := Option.some.inj hc
      exact hh.elim

lemma carries_ramp : Carries pairSetup (gradient .H ramp) us := by
  refine carries_of (a := qs) (b := qs) carries_s ?_ ?_ <;>
  · funext g d
    cases g <;> fin_cases d <;> simp [gradient, ramp, qs, ddx, pderiv_X]

/-- Magnetic charge stays, whatever the initial field. -/
example (q : Sdirk ℝ) (hi : Ideal33 q) := C145_run pair_valid _ pair_materials zero_le_one pair_weights .H ramp ramp_testing us carries_ramp
  (Or.inl rfl) (fun _ => 0) (fun t => by rw [charge_form pair_valid _ carries_ramp]; simp) q hi

/-- There are fields with magnetic charge. -/
example : charge pairSetup pairMaterials .H ramp us < 0 := by
  rw [charge_form pair_valid _ carries_ramp]
  have e := energy_eq pair_valid pairMaterials us
  have hp := fieldEnergy_pos pair_valid _ pair_materials us fun h => by
    have := congrFun (congrFun (congrFun h .H) 0) (.inr 1)
    simp [us, corners] at this
  rw [← e] at hp
  have hE : ∀ d, us .E d = 0 := by
    intro d; funext i
    rcases i with i | i <;> fin_cases d <;> fin_cases i <;> rfl
  simp only [energy, hE, zero_dotProduct, zero_add] at hp
  linarith

/-- The cavity of two triangles, for all test functions of the second order. -/
example := C145_straight cavity_valid _ cavity_materials cavity_weights cavity_nodal.complete

end Dgtd.Galerkin.Case
