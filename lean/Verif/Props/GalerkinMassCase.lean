/-
C142: a mesh that meets the hypotheses: the unit square cut along its diagonal, with two materials.
-/
import Verif.Props.GalerkinMass
import Verif.Props.GalerkinCase

set_option linter.unusedSimpArgs false

namespace Dgtd.Galerkin.Case
open MvPolynomial Spec Dgtd.Op Dgtd.Op.Spec Dgtd.Implicit
open Dgtd.Config (Material)

noncomputable def outer (e : Elem 1 (Fin 3 ⊕ Fin 3) ℝ) (k : Fin 2) : MeshFace 1 (Fin 3 ⊕ Fin 3) :=
  { s1 := ⟨e, some k, Equiv.swap 0 1⟩, s2 := none, rule := eight }

noncomputable def pairSetup : Setup 1 (Fin 3 ⊕ Fin 3) :=
  { cells := [⟨lower, 1, midpoints, midpoints⟩, ⟨upper, 3, midpoints, midpoints⟩]
    interior := [(none, { s1 := ⟨lower, none, 1⟩, s2 := some ⟨upper, none, Equiv.swap 0 1⟩, rule := eight })]
    bdr := [(some .PEC, outer lower 0), (some .SMA, outer lower 1), (some .PMC, outer upper 0), (some .PEC, outer upper 1)]
    alpha := 1 }

lemma pair_faces : Spec.faces pairSetup.skeleton =
    [MeshFace.fem { s1 := ⟨lower, none, 1⟩, s2 := some ⟨upper, none, Equiv.swap 0 1⟩, rule := eight },
      (outer lower 0).fem, (outer lower 1).fem, (outer upper 0).fem, (outer upper 1).fem] := rfl

lemma pair_simplicial : Simplicial pairSetup.skeleton 1 1 := by
  obtain ⟨b0, b1⟩ := bary1
  refine ⟨by omega, le_rfl, le_rfl, ?_, ?_, ?_, ?_, ?_, ?_, ?_⟩
  · intro e he d
    simp only [pairSetup, Setup.skeleton, List.map_cons, List.map_nil, List.mem_cons, List.not_mem_nil, or_false] at he
    rcases he with rfl | rfl
    · simp [lower]
    · exact degree_sub_le (by simp) (by simp)
  · intro e he i
    simp only [pairSetup, Setup.skeleton, List.map_cons, List.map_nil, List.mem_cons, List.not_mem_nil, or_false] at he
    rcases he with rfl | rfl <;> exact linear_degree 1 i
  · change ([(lower, none), (upper, none), (lower, some 0), (lower, some 1), (upper, some 0), (upper, some 1)] :
      List (Elem 1 (Fin 3 ⊕ Fin 3) ℝ × Option (Fin 2))).Perm
      [(lower, none), (lower, some 0), (lower, some 1), (upper, none), (upper, some 0), (upper, some 1)]
    exact .cons _ (List.perm_middle (l₁ := [(lower, some 0), (lower, some 1)])).symm
  · intro f hf
    rw [pair_faces] at hf
    simp only [List.mem_cons, List.not_mem_nil, or_false] at hf
    rcases hf with rfl | rfl | rfl | rfl | rfl <;>
      simp [Outward, normal, refSide_jac, MeshFace.fem, outer, loc, refNormal, finRange2, b0, b1]
  · intro f hf s hs
    rw [pair_faces] at hf
    simp only [List.mem_cons, List.not_mem_nil, or_false] at hf
    rcases hf with rfl | rfl | rfl | rfl | rfl
    · have hs : s = ⟨upper, none, Equiv.swap 0 1⟩ := by simpa [MeshFace.fem] using hs.symm
      subst hs
      refine ⟨fun d => ?_, ?_⟩
      · fin_cases d <;> simp [MeshFace.fem, Side.restrict, lower, upper, loc, b0, b1]
      · simp [normal, refSide_jac, loc, refNormal, finRange2, b0, b1]
    all_goals simp [outer, MeshFace.fem] at hs
  · intro e he
    simp only [pairSetup, Setup.skeleton, List.map_cons, List.map_nil, List.mem_cons, List.not_mem_nil, or_false] at he
    rcases he with rfl | rfl <;> exact exact_mono midpoints_exact (by decide)
  · intro f hf
    rw [pair_faces] at hf
    simp only [List.mem_cons, List.not_mem_nil, or_false] at hf
    rcases hf with rfl | rfl | rfl | rfl | rfl <;> exact exact_mono eight_exact (by decide)

lemma linear_independent (a : Nat → ℝ) (h : ∑ i ∈ Finset.range 3, C (a i) * linear 1 i = 0) : ∀ i < 3, a i = 0 := by
  have key : ∀ x : Fin 2 → ℝ, a 0 * (1 - (x 0 + x 1)) + a 1 * x 0 + a 2 * x 1 = 0 := by
    intro x
    have := congrArg (eval x) h
    simpa [Finset.sum_range_succ, linear, Fin.sum_univ_two] using this
  have h0 := key ![0, 0]
  have h1 := key ![1, 0]
  have h2 := key ![0, 1]
  simp at h0 h1 h2
  intro i hi
  interval_cases i <;> assumption

lemma pair_valid : ValidMesh pairSetup 1 1 := by
  refine ⟨pair_simplicial, ?_, ?_, by decide, fun r => ?_, ?_, ?_, ?_, ?_, ?_⟩
  rotate_left 2
  · change r ∈ ([.inl 0, .inl 1, .inl 2, .inr 0, .inr 1, .inr 2] : List (Fin 3 ⊕ Fin 3))
    rcases r with r | r <;> fin_cases r <;> simp
  rotate_left 5
  · intro c hc x _
    simp only [pairSetup, List.mem_cons, List.not_mem_nil, or_false] at hc
    rcases hc with rfl | rfl
    · simp [Elem.jac, lower, Matrix.det_fin_two, pderiv_X]
    · simp [Elem.jac, upper, Matrix.det_fin_two, pderiv_X]
  · intro c hc
    simp only [pairSetup, List.mem_cons, List.not_mem_nil, or_false] at hc
    rcases hc with rfl | rfl <;> exact linear_independent
  · intro q hq x hx
    have : q.2.rule = eight := by
      simp only [pairSetup, List.cons_append, List.nil_append, List.mem_cons, List.not_mem_nil, or_false] at hq
      rcases hq with rfl | rfl | rfl | rfl | rfl <;> rfl
    rw [this] at hx
    simp only [eight, List.mem_cons, List.not_mem_nil, or_false] at hx
    rcases hx with rfl | rfl | rfl | rfl | rfl | rfl | rfl | rfl <;> exact ⟨fun i => by fin_cases i; simp; try norm_num, by simp; try norm_num⟩
  · intro c hc
    simp only [pairSetup, List.mem_cons, List.not_mem_nil, or_false] at hc
    rcases hc with rfl | rfl <;> exact midpoints_exact
  · intro q hq
    simp only [pairSetup, List.mem_cons, List.not_mem_nil, or_false] at hq
    rcases hq with rfl | rfl | rfl | rfl <;> simp
  · intro q hq
    simp only [pairSetup, List.mem_cons, List.not_mem_nil, or_false] at hq
    rcases hq with rfl | rfl | rfl | rfl <;> rfl
  · intro q hq
    simp only [pairSetup, List.mem_cons, List.not_mem_nil, or_false] at hq
    subst hq
    simp

/-- Vacuum below the diagonal, a lossy dielectric above. -/
def pairMaterials : List (Int × Material ℝ) := [(3, ⟨4, 2, 3⟩), (1, ⟨1, 1, 0⟩)]

lemma pair_materials : ValidMaterials pairSetup pairMaterials := by
  refine ⟨by simp [pairMaterials], ?_, ?_, ?_, ?_, ?_⟩
  · simp [pairMaterials]
  · simp [pairMaterials]
  · simp [pairMaterials]
  · simp [pairMaterials]
  · intro c hc
    simp only [pairSetup, List.mem_cons, List.not_mem_nil, or_false] at hc
    rcases hc with rfl | rfl
    · exact ⟨⟨1, 1, 0⟩, by simp [pairMaterials, Assoc.find]⟩
    · exact ⟨⟨4, 2, 3⟩, by simp [pairMaterials, Assoc.find]⟩

lemma pair_weights : ∀ q ∈ pairSetup.interior ++ pairSetup.bdr, ∀ x ∈ q.2.rule, 0 ≤ x.1 := by
  intro q hq x hx
  have : q.2.rule = eight := by
    simp only [pairSetup, List.cons_append, List.nil_append, List.mem_cons, List.not_mem_nil, or_false] at hq
    rcases hq with rfl | rfl | rfl | rfl | rfl <;> rfl
  rw [this] at hx
  simp only [eight, List.mem_cons, List.not_mem_nil, or_false] at hx
  rcases hx with rfl | rfl | rfl | rfl | rfl | rfl | rfl | rfl <;> norm_num

example : ∃ F M, pairSetup.fem pairMaterials = .ok F ∧ (∀ u, energy M u = fieldEnergy pairSetup pairMaterials u) ∧
    ∀ u, energyRate M u (globalMult F.prob u) ≤ 0 := C142_stable pair_valid _ pair_materials zero_le_one

example := C142_implicit pair_valid _ pair_materials zero_le_one pair_weights

example := C142_explicit pair_valid _ pair_materials zero_le_one pair_weights

end Dgtd.Galerkin.Case
