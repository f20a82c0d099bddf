/-
C149: meshes that meet the hypotheses: the unit square cut along its diagonal.
-/
import Verif.Props.Cfl
import Verif.Props.ConvergenceCase

set_option linter.unusedSimpArgs false

namespace Dgtd.Galerkin.Case
open MvPolynomial Spec Dgtd.Op Dgtd.Op.Spec Dgtd.Implicit
open Dgtd.Config (Material)
open Dgtd.TimeStep.Spec (Known Usable Usable1 FirstGap)

lemma cavity_thick : Thick cavity (1 / 2) := by
  refine ⟨by norm_num, fun g e h x y hx hy => ?_, cavity_weights⟩
  have := cavity_fine.height g e h x y hx hy
  linarith

lemma cavity_atLeast : AtLeast cavity vacuum 1 0 := by
  intro c hc
  rw [cavity_vacuum hc]
  norm_num

example : ∃ F, cavity.fem vacuum = .ok F ∧ ∃ K, ∀ u, fieldEnergy cavity vacuum (globalMult F.prob u) ≤ K * fieldEnergy cavity vacuum u := by
  obtain ⟨K, -, hK⟩ := C149_rate 1 1 1 1 one_pos zero_le_one
  obtain ⟨F, e, h⟩ := hK _ cavity vacuum _ 0 cavity_valid cavity_materials cavity_atLeast le_rfl zero_le_one le_rfl cavity_thick
  exact ⟨F, e, _, h⟩

example := fun c hc => (C149_stable 1 1 1 1 one_pos zero_le_one).choose_spec.2 _ cavity vacuum c hc cavity_valid cavity_materials

/-! ### what the automatic step sees -/

/-- Corners of the square. -/
noncomputable def pt (x y : ℝ) : TimeStep.Pt := ⟨x, y, 0⟩

noncomputable def lowerElem : TimeStep.Elem :=
  { shape := .triangle, volume := 1 / 2, size := 1, edges := [(pt 0 0, pt 1 0), (pt 1 0, pt 0 1), (pt 0 1, pt 0 0)], faces := [], nodes := [] }

noncomputable def upperElem : TimeStep.Elem :=
  { shape := .triangle, volume := 1 / 2, size := 1, edges := [(pt 1 1, pt 0 1), (pt 0 1, pt 1 0), (pt 1 0, pt 1 1)], faces := [], nodes := [] }

noncomputable def seen : TimeStep.Setup := ⟨2, [lowerElem, upperElem], []⟩

lemma spots : spot (⟨lower, none, 1⟩ : Side 1 (Fin 3 ⊕ Fin 3) ℝ) = ![pt 1 0, pt 0 1] ∧ spot (outer lower 0).s1 = ![pt 0 1, pt 0 0] ∧
    spot (outer lower 1).s1 = ![pt 0 0, pt 1 0] ∧ spot (outer upper 0).s1 = ![pt 1 0, pt 1 1] ∧ spot (outer upper 1).s1 = ![pt 1 1, pt 0 1] := by
  obtain ⟨b0, b1⟩ := bary1
  refine ⟨?_, ?_, ?_, ?_, ?_⟩ <;> funext j <;> fin_cases j <;>
    simp [spot, pos, Side.restrict, outer, lower, upper, loc, b0, b1, faceCorner, pt]

lemma cavity_describes : Describes seen cavity := by
  obtain ⟨p0, p1, p2, p3, p4⟩ := spots
  have hne := upper_ne
  have hne' : ¬ lower = upper := fun h => hne h.symm
  have fwd : ∀ {el : TimeStep.Elem} {v : Fin 2 → TimeStep.Pt}, (v 0, v 1) ∈ el.edges → Has el v := fun h => ⟨1, h⟩
  have bwd : ∀ {el : TimeStep.Elem} {v : Fin 2 → TimeStep.Pt}, (v 1, v 0) ∈ el.edges → Has el v := fun h => ⟨Equiv.swap 0 1, by simpa using h⟩
  refine ⟨rfl, fun c hc => ?_⟩
  rcases cavity_cells hc with rfl | rfl
  · refine ⟨lowerElem, by simp [seen], ?_, ?_, fun h => absurd h (by norm_num)⟩
    · have : lower.jac.det = C 1 := by simp [Elem.jac, lower, Matrix.det_fin_two, pderiv_X]
      change (1 / 2 : ℝ) = integral 2 lower.jac.det
      rw [this, integral_const]; norm_num [Nat.factorial]
    · rintro g ⟨⟨o, ho⟩, he⟩
      simp only [cavity, pairSetup, List.cons_append, List.nil_append, List.mem_cons, List.not_mem_nil, or_false, Prod.mk.injEq] at ho
      rcases ho with ⟨-, rfl⟩ | ⟨-, rfl⟩ | ⟨-, rfl⟩ | ⟨-, rfl⟩ | ⟨-, rfl⟩
      · exact fwd (by rw [p0]; simp [lowerElem])
      · exact fwd (by rw [p1]; simp [lowerElem])
      · exact fwd (by rw [p2]; simp [lowerElem])
      · exact absurd he (by simp [outer, hne'])
      · exact absurd he (by simp [outer, hne'])
  · refine ⟨upperElem, by simp [seen], ?_, ?_, fun h => absurd h (by norm_num)⟩
    · have : upper.jac.det = C 1 := by simp [Elem.jac, upper, Matrix.det_fin_two, pderiv_X]
      change (1 / 2 : ℝ) = integral 2 upper.jac.det
      rw [this, integral_const]; norm_num [Nat.factorial]
    · rintro g ⟨⟨o, ho⟩, he⟩
      simp only [cavity, pairSetup, List.cons_append, List.nil_append, List.mem_cons, List.not_mem_nil, or_false, Prod.mk.injEq] at ho
      rcases ho with ⟨-, rfl⟩ | ⟨-, rfl⟩ | ⟨-, rfl⟩ | ⟨-, rfl⟩ | ⟨-, rfl⟩
      · exact bwd (by rw [p0]; simp [upperElem])
      · exact absurd he (by simp [outer, hne])
      · exact absurd he (by simp [outer, hne])
      · exact fwd (by rw [p3]; simp [upperElem])
      · exact fwd (by rw [p4]; simp [upperElem])

lemma cavity_usable : Usable seen := by
  refine ⟨by simp [seen], fun e he => ?_⟩
  have one : TimeStep.Spec.span (pt 0 0) (pt 1 0) = 1 := by simp [TimeStep.Spec.span, pt]
  have one' : TimeStep.Spec.span (pt 1 1) (pt 0 1) = 1 := by simp [TimeStep.Spec.span, pt]
  have nn : ∀ a b, 0 ≤ TimeStep.Spec.span a b := fun _ _ => Real.sqrt_nonneg _
  simp only [seen, List.mem_cons, List.not_mem_nil, or_false] at he
  rcases he with rfl | rfl
  · refine ⟨by norm_num [lowerElem], ?_⟩
    simp only [seen, TimeStep.Spec.border, if_true, lowerElem, List.map_cons, List.map_nil, List.sum_cons, List.sum_nil, one]
    have h1 := nn (pt 1 0) (pt 0 1); have h2 := nn (pt 0 1) (pt 0 0)
    linarith
  · refine ⟨by norm_num [upperElem], ?_⟩
    simp only [seen, TimeStep.Spec.border, if_true, upperElem, List.map_cons, List.map_nil, List.sum_cons, List.sum_nil, one']
    have h1 := nn (pt 0 1) (pt 1 0); have h2 := nn (pt 1 0) (pt 1 1)
    linarith

example : ∃ c, 0 < c ∧ ∀ cfl, 0 < cfl → cfl ≤ c → ∃ dt F A, TimeStep.estimateTimeStep (fun _ => [-1, 1]) seen ⟨0, 1, cfl, 0, .global, 1⟩ = .ok dt ∧
    cavity.fem vacuum = .ok F ∧ (∀ u : State _ ℝ, A.mulVec (flat u) = flat (globalMult F.prob u)) ∧
    ∀ (q : Sdirk ℝ) (N : Nat) (u u' : State _ ℝ), ∃ y y' k k',
      TimeInt.run q .rk4 (TimeInt.globalTdo A 0) (List.replicate N dt ++ [dt]) (flat u) 0 fresh = some (flat y, 0 + N * dt + dt, k) ∧
      TimeInt.run q .rk4 (TimeInt.globalTdo A 0) (List.replicate N dt ++ [dt]) (flat u') 0 fresh = some (flat y', 0 + N * dt + dt, k') ∧
      fieldEnergy cavity vacuum (y - y') ≤ 4 * fieldEnergy cavity vacuum (u - u') := by
  have hr : FirstGap (fun _ => [-1, 1]) 1 2 := ⟨by norm_num, -1, 1, [], rfl, by norm_num⟩
  obtain ⟨c, hc, st⟩ := C149_automatic_partial 1 1 1 1 one_pos zero_le_one _ 2 hr
  refine ⟨c, hc, fun cfl h0 h1 => ?_⟩
  obtain ⟨dt, F, A, e, hdt, hF, hA, run⟩ := st _ cavity vacuum 0 seen ⟨0, 1, cfl, 0, .global, 1⟩ cavity_valid cavity_materials cavity_atLeast le_rfl
    zero_le_one le_rfl cavity_weights cavity_describes (fun h => absurd h (by norm_num [seen])) cavity_usable ⟨by norm_num, by norm_num, h0⟩ rfl (by simp) h1
  exact ⟨dt, F, A, e, hF, hA, fun q N u u' => run (by rw [mul_zero]; exact hc.le) q 0 dt hdt.le le_rfl N u u' 0⟩

/-! ### conductors -/

/-- The square between magnetic walls. -/
noncomputable def magnetic : Setup 1 (Fin 3 ⊕ Fin 3) :=
  { pairSetup with bdr := [(some .PMC, outer lower 0), (some .PMC, outer lower 1), (some .PMC, outer upper 0), (some .PMC, outer upper 1)] }

lemma magnetic_valid : ValidMesh magnetic 1 1 := by
  have h := cavity_valid
  have s := h.simplicial
  refine ⟨⟨s.dim, s.order, s.geomOrder, s.geom, s.shape, s.cover, s.one, s.two, s.volume, s.surface⟩, h.jacobian, h.independent, h.dofs_nodup, h.dofs_all,
    ?_, h.mass, ?_, ?_, h.no_sgbc⟩
  · intro q hq
    have : ∃ o, (o, q.2) ∈ cavity.interior ++ cavity.bdr := by
      simp only [magnetic, pairSetup, List.cons_append, List.nil_append, List.mem_cons, List.not_mem_nil, or_false] at hq
      rcases hq with rfl | rfl | rfl | rfl | rfl
      · exact ⟨none, by simp [cavity, pairSetup]⟩
      all_goals exact ⟨some .PEC, by simp [cavity, pairSetup]⟩
    obtain ⟨o, ho⟩ := this
    exact h.inside (o, q.2) ho
  · intro q hq
    simp only [magnetic, List.mem_cons, List.not_mem_nil, or_false] at hq
    rcases hq with rfl | rfl | rfl | rfl <;> simp
  · intro q hq
    simp only [magnetic, List.mem_cons, List.not_mem_nil, or_false] at hq
    rcases hq with rfl | rfl | rfl | rfl <;> rfl

/-- A uniform electric field. -/
def uniformE : State (Fin 3 ⊕ Fin 3) ℝ := fun f d _ => if f = .E ∧ d = 2 then 1 else 0

lemma uniform_carried : Carries magnetic (fun _ f d => if f = .E ∧ d = 2 then 1 else 0) uniformE := by
  intro c hc f d
  have hc : c ∈ cavity.cells := hc
  have : bind₁ c.e.geom (if f = FieldT.E ∧ d = 2 then (1 : Poly 2 ℝ) else 0) = C (if f = FieldT.E ∧ d = 2 then 1 else 0) := by
    split_ifs <;> simp
  rw [this]
  unfold onElem uniformE
  rw [(cavity_shape hc).1, (cavity_shape hc).2, ← Finset.mul_sum]
  have : ∑ i ∈ Finset.range 3, (linear 1 i : Poly 2 ℝ) = 1 := by
    simp [Finset.sum_range_succ, linear, Fin.sum_univ_two]
    ring
  rw [this, mul_one]

example (dt : ℝ) (hdt : 0 < dt) := C149_violated_conductors magnetic_valid
  (fun q hq => by
    simp only [magnetic, pairSetup, List.mem_cons, List.not_mem_nil, or_false] at hq
    subst hq; simp)
  (fun q hq => by
    simp only [magnetic, List.mem_cons, List.not_mem_nil, or_false] at hq
    rcases hq with rfl | rfl | rfl | rfl <;> rfl)
  (fun c hc => by rcases cavity_cells (c := c) hc with rfl | rfl <;> norm_num) uniformE uniform_carried dt hdt

end Dgtd.Galerkin.Case
