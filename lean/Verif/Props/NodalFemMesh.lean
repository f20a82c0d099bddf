/-
C162: the mesh of the case that meets the hypotheses: the fundamental mode of a square cavity with perfectly conducting walls, on two
triangles, the unknowns numbered by element and node.
-/
import Verif.Props.NodalFem
import Verif.Props.UniformCase

set_option linter.unusedSimpArgs false

namespace Dgtd.NodalFem.Case
open MvPolynomial Dgtd.Galerkin Dgtd.Galerkin.Spec Dgtd.Galerkin.Case Dgtd.Op Dgtd.Op.Spec Dgtd.Implicit
open Dgtd.Config (Material)
open scoped ContDiff

noncomputable def lower : Elem 1 (Fin 2 × Fin 3) ℝ := { geom := X, size := 3, shape := linear 1, dof := fun i => (0, Fin.ofNat 3 i) }

noncomputable def upper : Elem 1 (Fin 2 × Fin 3) ℝ :=
  { geom := fun d => 1 - X d, size := 3, shape := linear 1, dof := fun i => (1, Fin.ofNat 3 i) }

noncomputable def outer (e : Elem 1 (Fin 2 × Fin 3) ℝ) (k : Fin 2) : MeshFace 1 (Fin 2 × Fin 3) :=
  { s1 := ⟨e, some k, Equiv.swap 0 1⟩, s2 := none, rule := eight }

noncomputable def pairSetup : Setup 1 (Fin 2 × Fin 3) :=
  { cells := [⟨lower, 1, midpoints, midpoints⟩, ⟨upper, 3, midpoints, midpoints⟩]
    interior := [(none, { s1 := ⟨lower, none, 1⟩, s2 := some ⟨upper, none, Equiv.swap 0 1⟩, rule := eight })]
    bdr := [(some .PEC, outer lower 0), (some .SMA, outer lower 1), (some .PMC, outer upper 0), (some .PEC, outer upper 1)]
    alpha := 1 }

lemma pair_faces : Spec.faces pairSetup.skeleton =
    [MeshFace.fem { s1 := ⟨lower, none, 1⟩, s2 := some ⟨upper, none, Equiv.swap 0 1⟩, rule := eight },
      (outer lower 0).fem, (outer lower 1).fem, (outer upper 0).fem, (outer upper 1).fem] := rfl

lemma pair_simplicial : Simplicial pairSetup.skeleton 1 1 := by
  obtain ⟨b0, b1⟩ := bary1
  refine ⟨by omega, le_rfl, le_rfl, ?_, ?_, ?_, ?_, ?_, ?_, ?_⟩
  · intro e he d
    simp only [pairSetup, Setup.skeleton, List.map_cons, List.map_nil, List.mem_cons, List.not_mem_nil, or_false] at he
    rcases he with rfl | rfl
    · simp [lower]
    · exact degree_sub_le (by simp) (by simp)
  · intro e he i
    simp only [pairSetup, Setup.skeleton, List.map_cons, List.map_nil, List.mem_cons, List.not_mem_nil, or_false] at he
    rcases he with rfl | rfl <;> exact linear_degree 1 i
  · change ([(lower, none), (upper, none), (lower, some 0), (lower, some 1), (upper, some 0), (upper, some 1)] :
      List (Elem 1 (Fin 2 × Fin 3) ℝ × Option (Fin 2))).Perm
      [(lower, none), (lower, some 0), (lower, some 1), (upper, none), (upper, some 0), (upper, some 1)]
    exact .cons _ (List.perm_middle (l₁ := [(lower, some 0), (lower, some 1)])).symm
  · intro f hf
    rw [pair_faces] at hf
    simp only [List.mem_cons, List.not_mem_nil, or_false] at hf
    rcases hf with rfl | rfl | rfl | rfl | rfl <;>
      simp [Outward, normal, refSide_jac, MeshFace.fem, outer, loc, refNormal, finRange2, b0, b1]
  · intro f hf s hs
    rw [pair_faces] at hf
    simp only [List.mem_cons, List.not_mem_nil, or_false] at hf
    rcases hf with rfl | rfl | rfl | rfl | rfl
    · have hs : s = ⟨upper, none, Equiv.swap 0 1⟩ := by simpa [MeshFace.fem] using hs.symm
      subst hs
      refine ⟨fun d => ?_, ?_⟩
      · fin_cases d <;> simp [MeshFace.fem, Side.restrict, lower, upper, loc, b0, b1]
      · simp [normal, refSide_jac, loc, refNormal, finRange2, b0, b1]
    all_goals simp [outer, MeshFace.fem] at hs
  · intro e he
    simp only [pairSetup, Setup.skeleton, List.map_cons, List.map_nil, List.mem_cons, List.not_mem_nil, or_false] at he
    rcases he with rfl | rfl <;> exact exact_mono midpoints_exact (by decide)
  · intro f hf
    rw [pair_faces] at hf
    simp only [List.mem_cons, List.not_mem_nil, or_false] at hf
    rcases hf with rfl | rfl | rfl | rfl | rfl <;> exact exact_mono eight_exact (by decide)

lemma pair_valid : ValidMesh pairSetup 1 1 := by
  refine ⟨pair_simplicial, ?_, ?_, by decide, fun r => ?_, ?_, ?_, ?_, ?_, ?_⟩
  rotate_left 2
  · change r ∈ ([(0, 0), (0, 1), (0, 2), (1, 0), (1, 1), (1, 2)] : List (Fin 2 × Fin 3))
    fin_cases r <;> simp
  rotate_left 5
  · intro c hc x _
    simp only [pairSetup, List.mem_cons, List.not_mem_nil, or_false] at hc
    rcases hc with rfl | rfl
    · simp [Elem.jac, lower, Matrix.det_fin_two, pderiv_X]
    · simp [Elem.jac, upper, Matrix.det_fin_two, pderiv_X]
  · intro c hc
    simp only [pairSetup, List.mem_cons, List.not_mem_nil, or_false] at hc
    rcases hc with rfl | rfl <;> exact linear_independent
  · intro q hq x hx
    have : q.2.rule = eight := by
      simp only [pairSetup, List.cons_append, List.nil_append, List.mem_cons, List.not_mem_nil, or_false] at hq
      rcases hq with rfl | rfl | rfl | rfl | rfl <;> rfl
    rw [this] at hx
    simp only [eight, List.mem_cons, List.not_mem_nil, or_false] at hx
    rcases hx with rfl | rfl | rfl | rfl | rfl | rfl | rfl | rfl <;> exact ⟨fun i => by fin_cases i; simp; try norm_num, by simp; try norm_num⟩
  · intro c hc
    simp only [pairSetup, List.mem_cons, List.not_mem_nil, or_false] at hc
    rcases hc with rfl | rfl <;> exact midpoints_exact
  · intro q hq
    simp only [pairSetup, List.mem_cons, List.not_mem_nil, or_false] at hq
    rcases hq with rfl | rfl | rfl | rfl <;> simp
  · intro q hq
    simp only [pairSetup, List.mem_cons, List.not_mem_nil, or_false] at hq
    rcases hq with rfl | rfl | rfl | rfl <;> rfl
  · intro q hq
    simp only [pairSetup, List.mem_cons, List.not_mem_nil, or_false] at hq
    subst hq
    simp

lemma normals : normal (⟨lower, none, 1⟩ : Side 1 (Fin 2 × Fin 3) ℝ) = [1, 1] ∧
    normal (outer lower 0).s1 = [-1, 0] ∧ normal (outer lower 1).s1 = [0, -1] ∧
    normal (outer upper 0).s1 = [1, 0] ∧ normal (outer upper 1).s1 = [0, 1] := by
  obtain ⟨b0, b1⟩ := bary1
  refine ⟨?_, ?_, ?_, ?_, ?_⟩ <;>
    simp [normal, refSide_jac, outer, loc, refNormal, finRange2, b0, b1, lower, upper, Elem.adj, Elem.jac, Matrix.adjugate_fin_two, pderiv_X, Side.jac, Side.restrict]

/-- `E_z = sin πx sin πy cos ωt`, and the magnetic field that goes with it; the same in both elements. -/
noncomputable def mode : Solution 1 (Fin 2 × Fin 3) := fun _ f d => match f, d with
  | .E, 2 => sep (cs freq) (sn Real.pi) (sn Real.pi)
  | .H, 0 => sep (fun s => -(Real.pi / freq) * sn freq s) (sn Real.pi) (cs Real.pi)
  | .H, 1 => sep (fun s => Real.pi / freq * sn freq s) (cs Real.pi) (sn Real.pi)
  | _, _ => 0

lemma mode_smooth (a : Elem 1 (Fin 2 × Fin 3) ℝ) (f : FieldT) (d : Dir) : ContDiff ℝ ∞ (mode a f d) := by
  cases f <;> fin_cases d
  · exact contDiff_const
  · exact contDiff_const
  · exact sep_smooth (cs_smooth _) (sn_smooth _) (sn_smooth _)
  · exact sep_smooth (contDiff_const.mul (sn_smooth _)) (sn_smooth _) (cs_smooth _)
  · exact sep_smooth (contDiff_const.mul (sn_smooth _)) (cs_smooth _) (sn_smooth _)
  · exact contDiff_const

lemma mode_E (a : Elem 1 (Fin 2 × Fin 3) ℝ) (d : Dir) (z : Event 2) : dt (mode a .E d) z = curlAt (mode a .H) d z := by
  have hf := freq_pos.ne'
  have h2 := freq_sq
  fin_cases d
  · change dt 0 z = dirDeriv 1 0 z - dirDeriv 2 _ z
    rw [dt_zero, dirDeriv_1, dx_zero, dirDeriv_2]; simp
  · change dt 0 z = dirDeriv 2 _ z - dirDeriv 0 0 z
    rw [dt_zero, dirDeriv_0, dx_zero, dirDeriv_2]; simp
  · change dt (sep (cs freq) (sn Real.pi) (sn Real.pi)) z = dirDeriv 0 (sep (fun s => Real.pi / freq * sn freq s) (cs Real.pi) (sn Real.pi)) z -
      dirDeriv 1 (sep (fun s => -(Real.pi / freq) * sn freq s) (sn Real.pi) (cs Real.pi)) z
    rw [dirDeriv_0, dirDeriv_1, sep_dt (cs_deriv _) (sn_deriv _) (sn_deriv _), sep_dx0 (amp_deriv _) (cs_deriv _) (sn_deriv _),
      sep_dx1 (amp_deriv _) (sn_deriv _) (cs_deriv _)]
    simp only [sep]
    field_simp
    linear_combination (-(sn freq z.1 * sn Real.pi (z.2 0) * sn Real.pi (z.2 1))) * h2

lemma mode_H (a : Elem 1 (Fin 2 × Fin 3) ℝ) (d : Dir) (z : Event 2) : dt (mode a .H d) z = -curlAt (mode a .E) d z := by
  have hf := freq_pos.ne'
  fin_cases d
  · change dt (sep (fun s => -(Real.pi / freq) * sn freq s) (sn Real.pi) (cs Real.pi)) z =
      -(dirDeriv 1 (sep (cs freq) (sn Real.pi) (sn Real.pi)) z - dirDeriv 2 _ z)
    rw [dirDeriv_1, dirDeriv_2, sep_dt (amp_deriv _) (sn_deriv _) (cs_deriv _), sep_dx1 (cs_deriv _) (sn_deriv _) (sn_deriv _)]
    simp only [sep, Pi.zero_apply]
    field_simp
    ring
  · change dt (sep (fun s => Real.pi / freq * sn freq s) (cs Real.pi) (sn Real.pi)) z =
      -(dirDeriv 2 _ z - dirDeriv 0 (sep (cs freq) (sn Real.pi) (sn Real.pi)) z)
    rw [dirDeriv_0, dirDeriv_2, sep_dt (amp_deriv _) (cs_deriv _) (sn_deriv _), sep_dx0 (cs_deriv _) (sn_deriv _) (sn_deriv _)]
    simp only [sep, Pi.zero_apply]
    field_simp
    ring
  · change dt 0 z = -(dirDeriv 0 0 z - dirDeriv 1 0 z)
    rw [dt_zero, dirDeriv_0, dirDeriv_1, dx_zero, dx_zero]; simp

/-- The unit square cut along its diagonal, with perfectly conducting walls. -/
noncomputable def cavity : Setup 1 (Fin 2 × Fin 3) :=
  { pairSetup with bdr := [(some .PEC, outer lower 0), (some .PEC, outer lower 1), (some .PEC, outer upper 0), (some .PEC, outer upper 1)] }

lemma cavity_valid : ValidMesh cavity 1 1 := by
  have h := pair_valid
  have s := pair_simplicial
  refine ⟨⟨s.dim, s.order, s.geomOrder, s.geom, s.shape, s.cover, s.one, s.two, s.volume, s.surface⟩, h.jacobian, h.independent, h.dofs_nodup, h.dofs_all,
    ?_, h.mass, ?_, ?_, h.no_sgbc⟩
  · intro q hq
    have : ∃ o, (o, q.2) ∈ pairSetup.interior ++ pairSetup.bdr := by
      simp only [cavity, pairSetup, List.cons_append, List.nil_append, List.mem_cons, List.not_mem_nil, or_false] at hq
      rcases hq with rfl | rfl | rfl | rfl | rfl
      · exact ⟨none, by simp [pairSetup]⟩
      · exact ⟨some .PEC, by simp [pairSetup]⟩
      · exact ⟨some .SMA, by simp [pairSetup]⟩
      · exact ⟨some .PMC, by simp [pairSetup]⟩
      · exact ⟨some .PEC, by simp [pairSetup]⟩
    obtain ⟨o, ho⟩ := this
    exact h.inside (o, q.2) ho
  · intro q hq
    simp only [cavity, List.mem_cons, List.not_mem_nil, or_false] at hq
    rcases hq with rfl | rfl | rfl | rfl <;> simp
  · intro q hq
    simp only [cavity, List.mem_cons, List.not_mem_nil, or_false] at hq
    rcases hq with rfl | rfl | rfl | rfl <;> rfl

lemma cavity_cells {c : Cell 1 (Fin 2 × Fin 3)} (hc : c ∈ cavity.cells) :
    c = ⟨lower, 1, midpoints, midpoints⟩ ∨ c = ⟨upper, 3, midpoints, midpoints⟩ := by
  simpa [cavity, pairSetup] using hc

lemma cavity_materials : ValidMaterials cavity vacuum := by
  refine ⟨by simp [vacuum], by simp [vacuum], by simp [vacuum], by simp [vacuum], by simp [vacuum], ?_⟩
  intro c hc
  rcases cavity_cells hc with rfl | rfl <;> exact ⟨⟨1, 1, 0⟩, by simp [vacuum, Assoc.find]⟩

lemma cavity_vacuum {c : Cell 1 (Fin 2 × Fin 3)} (hc : c ∈ cavity.cells) : materialOf vacuum c = ⟨1, 1, 0⟩ := by
  rcases cavity_cells hc with rfl | rfl <;> simp [materialOf, vacuum, Assoc.find]

lemma in_square {c : Cell 1 (Fin 2 × Fin 3)} (hc : c ∈ cavity.cells) {y : Fin 2 → ℝ} (hy : InElem c.e y) : ∀ i, 0 ≤ y i ∧ y i ≤ 1 := by
  obtain ⟨x, hx, rfl⟩ := hy
  have h0 := hx.1 0
  have h1 := hx.1 1
  have hs := hx.2
  rw [Fin.sum_univ_two] at hs
  intro i
  rcases cavity_cells hc with rfl | rfl
  · fin_cases i <;> simp [lower] <;> constructor <;> linarith
  · fin_cases i <;> simp [upper] <;> constructor <;> linarith

/-- The corners of the reference triangle. -/
noncomputable def corner3 (_ : Elem 1 (Fin 2 × Fin 3) ℝ) : Nat → Fin 2 → ℝ
  | 0 => ![0, 0]
  | 1 => ![1, 0]
  | _ => ![0, 1]

lemma cavity_shape {c : Cell 1 (Fin 2 × Fin 3)} (hc : c ∈ cavity.cells) : c.e.shape = linear 1 ∧ c.e.size = 3 := by
  rcases cavity_cells hc with rfl | rfl <;> exact ⟨rfl, rfl⟩

lemma cavity_nodal : Nodal cavity 1 1 corner3 := by
  refine ⟨fun c hc q hq => ?_, fun c hc i hi => ?_, fun c hc i hi j hj => ?_, fun c hc x hx => ?_⟩
  · rw [(cavity_shape hc).1, (cavity_shape hc).2]; exact linear_span q hq
  · rw [(cavity_shape hc).2] at hi
    interval_cases i <;> exact ⟨fun k => by fin_cases k <;> simp [corner3], by simp [corner3, Fin.sum_univ_two]⟩
  · rw [(cavity_shape hc).2] at hi hj
    rw [(cavity_shape hc).1]
    interval_cases i <;> interval_cases j <;> simp [corner3, linear, Fin.sum_univ_two]
  · rw [(cavity_shape hc).1, (cavity_shape hc).2]
    have h0 := hx.1 0
    have h1 := hx.1 1
    have hs := hx.2
    rw [Fin.sum_univ_two] at hs
    simp [Finset.sum_range_succ, linear, Fin.sum_univ_two]
    rw [abs_of_nonneg h0, abs_of_nonneg h1, abs_of_nonneg (by linarith)]
    linarith

lemma cavity_weights : ∀ q ∈ cavity.interior ++ cavity.bdr, ∀ x ∈ q.2.rule, 0 ≤ x.1 := by
  intro q hq x hx
  have : q.2.rule = eight := by
    simp only [cavity, pairSetup, List.cons_append, List.nil_append, List.mem_cons, List.not_mem_nil, or_false] at hq
    rcases hq with rfl | rfl | rfl | rfl | rfl <;> rfl
  rw [this] at hx
  simp only [eight, List.mem_cons, List.not_mem_nil, or_false] at hx
  rcases hx with rfl | rfl | rfl | rfl | rfl | rfl | rfl | rfl <;> norm_num

lemma cavity_fine : Fineness cavity 1 2 := by
  refine ⟨one_pos, by norm_num, fun c hc y y' hy hy' i => ?_, ?_, ?_, cavity_weights⟩
  · have h1 := in_square hc hy i
    have h2 := in_square hc hy' i
    rw [abs_le]; constructor <;> linarith
  · rintro g e ⟨⟨o, ho⟩, he⟩ x y hx hy
    have hdet : eval y e.jac.det = 1 := by
      obtain ⟨⟨c, hc, e1⟩, e2⟩ := sides_cells cavity_valid ho
      obtain ⟨c, hc, rfl⟩ : ∃ c ∈ cavity.cells, e = c.e := by
        rcases he with rfl | ⟨s, hs, rfl⟩
        · exact ⟨c, hc, e1⟩
        · exact e2 s hs
      rcases cavity_cells hc with rfl | rfl
      · simp [Elem.jac, lower, Matrix.det_fin_two, pderiv_X]
      · simp [Elem.jac, upper, Matrix.det_fin_two, pderiv_X]
    rw [hdet, one_mul, mul_one]
    change √(((normal g.s1).map fun c => eval x c ^ 2).sum) ≤ 2
    rw [Real.sqrt_le_left (by norm_num)]
    obtain ⟨n0, n1, n2, n3, n4⟩ := normals
    simp only [cavity, pairSetup, List.cons_append, List.nil_append, List.mem_cons, List.not_mem_nil, or_false, Prod.mk.injEq] at ho
    rcases ho with ⟨-, rfl⟩ | ⟨-, rfl⟩ | ⟨-, rfl⟩ | ⟨-, rfl⟩ | ⟨-, rfl⟩
    · rw [n0]; norm_num
    · rw [n1]; norm_num
    · rw [n2]; norm_num
    · rw [n3]; norm_num
    · rw [n4]; norm_num
  · intro q hq
    simp only [cavity, pairSetup, List.mem_cons, List.not_mem_nil, or_false] at hq
    subst hq
    simp

lemma mode_wall (a : Elem 1 (Fin 2 × Fin 3) ℝ) {t x y : ℝ} (h : x = 0 ∨ x = 1 ∨ y = 0 ∨ y = 1) (d : Dir) : mode a .E d (t, ![x, y]) = 0 := by
  fin_cases d
  · rfl
  · rfl
  · change cs freq t * sn Real.pi x * sn Real.pi y = 0
    rcases h with rfl | rfl | rfl | rfl <;> simp [sn_int]

lemma cavity_fits (T : ℝ) : Fits cavity T mode := by
  obtain ⟨b0, b1⟩ := bary1
  refine ⟨?_, ?_, ?_⟩
  · intro q hq _ s hs t _ _ x hx f d
    simp only [cavity, pairSetup, List.mem_cons, List.not_mem_nil, or_false] at hq
    subst hq
    obtain rfl : s = ⟨upper, none, Equiv.swap 0 1⟩ := by simpa using hs.symm
    have p1 : pos (⟨lower, none, 1⟩ : Side 1 (Fin 2 × Fin 3) ℝ) x = ![1 - x 0, 1 - (1 - x 0)] := by
      funext k; fin_cases k <;> simp [pos, Side.restrict, lower, loc, b0, b1]
    have p2 : pos (⟨upper, none, Equiv.swap 0 1⟩ : Side 1 (Fin 2 × Fin 3) ℝ) x = ![1 - x 0, 1 - (1 - x 0)] := by
      funext k; fin_cases k <;> simp [pos, Side.restrict, upper, loc, b0, b1]
    have : ∀ k, beside mode t (⟨lower, none, 1⟩ : Side 1 (Fin 2 × Fin 3) ℝ) x f k - beside mode t ⟨upper, none, Equiv.swap 0 1⟩ x f k = 0 := by
      intro k
      unfold beside
      rw [p1, p2]
      exact sub_self _
    simp only [cross, this]; ring
  · intro q hq c hc
    simp only [cavity, pairSetup, List.mem_cons, List.not_mem_nil, or_false] at hq
    subst hq; simp at hc
  · intro q hq c hc t _ _ x hx
    have zero : ∀ {v : Dir → ℝ} {ν : Dir → ℝ}, (∀ d, v d = 0) → ∀ d, cross ν v d = 0 := fun h d => by simp [cross, h]
    simp only [cavity, List.mem_cons, List.not_mem_nil, or_false] at hq
    rcases hq with rfl | rfl | rfl | rfl
    · obtain rfl := Option.some.inj hc
      have p1 : pos (outer lower 0).s1 x = ![0, 1 - x 0] := by
        funext k; fin_cases k <;> simp [pos, Side.restrict, lower, outer, loc, b0, b1]
      exact zero fun d => by unfold beside; rw [p1]; exact mode_wall _ (Or.inl rfl) d
    · obtain rfl := Option.some.inj hc
      have p1 : pos (outer lower 1).s1 x = ![x 0, 0] := by
        funext k; fin_cases k <;> simp [pos, Side.restrict, lower, outer, loc, b0, b1]
      exact zero fun d => by unfold beside; rw [p1]; exact mode_wall _ (Or.inr (Or.inr (Or.inl rfl))) d
    · obtain rfl := Option.some.inj hc
      have p1 : pos (outer upper 0).s1 x = ![1, x 0] := by
        funext k; fin_cases k <;> simp [pos, Side.restrict, upper, outer, loc, b0, b1]
      exact zero fun d => by unfold beside; rw [p1]; exact mode_wall _ (Or.inr (Or.inl rfl)) d
    · obtain rfl := Option.some.inj hc
      have p1 : pos (outer upper 1).s1 x = ![1 - x 0, 1] := by
        funext k; fin_cases k <;> simp [pos, Side.restrict, upper, outer, loc, b0, b1]
      exact zero fun d => by unfold beside; rw [p1]; exact mode_wall _ (Or.inr (Or.inr (Or.inr rfl))) d

lemma cavity_bounded (T : ℝ) : ∃ B, 0 ≤ B ∧ Bounded cavity T mode 2 B := by
  have hb : ∀ k : (FieldT × Dir) × (Fin 2 × Fin 2) , ∃ B, 0 ≤ B ∧ ∀ t, 0 ≤ t → t ≤ T → ∀ y : Fin 2 → ℝ, (∀ i, 0 ≤ y i ∧ y i ≤ 1) →
      |dxs [k.2.1, k.2.2] (mode lower k.1.1 k.1.2) (t, y)| ≤ B ∧ |dxs [k.2.1, k.2.2] (dt (mode lower k.1.1 k.1.2)) (t, y)| ≤ B := by
    intro k
    obtain ⟨B1, h1, k1⟩ := bound_one T (dxs_smooth (mode_smooth lower k.1.1 k.1.2) [k.2.1, k.2.2]).continuous
    obtain ⟨B2, h2, k2⟩ := bound_one T (dxs_smooth (contDiff_dt (mode_smooth lower k.1.1 k.1.2)) [k.2.1, k.2.2]).continuous
    exact ⟨B1 + B2, by positivity, fun t h0 hT y hy => ⟨(k1 t h0 hT y hy).trans (by linarith), (k2 t h0 hT y hy).trans (by linarith)⟩⟩
  choose b h0 hb using hb
  have hfin : ∃ B, 0 ≤ B ∧ ∀ k ∈ ([.E, .H] : List FieldT) ×ˢ (List.finRange 3) ×ˢ (List.finRange 2) ×ˢ (List.finRange 2), b ((k.1, k.2.1), k.2.2) ≤ B := by
    generalize ([.E, .H] : List FieldT) ×ˢ (List.finRange 3) ×ˢ (List.finRange 2) ×ˢ (List.finRange 2) = l
    induction l with
    | nil => exact ⟨0, le_rfl, by simp⟩
    | cons k l ih =>
      obtain ⟨B, hB, h⟩ := ih
      refine ⟨max B (b ((k.1, k.2.1), k.2.2)), hB.trans (le_max_left _ _), fun j hj => ?_⟩
      rcases List.mem_cons.1 hj with rfl | hj
      · exact le_max_right _ _
      · exact (h j hj).trans (le_max_left _ _)
  obtain ⟨B, hB, hmax⟩ := hfin
  refine ⟨B, hB, fun c hc t ht hT y hy f d l hl => ?_⟩
  obtain ⟨i, j, rfl⟩ : ∃ i j, l = [i, j] := by
    match l, hl with
    | [i, j], _ => exact ⟨i, j, rfl⟩
  have h1 := hb ((f, d), (i, j)) t ht hT y (in_square hc hy)
  have h2 : b ((f, d), (i, j)) ≤ B := hmax (f, d, i, j) (by
    simp only [List.mem_product, List.mem_finRange, and_true]
    cases f <;> simp)
  exact ⟨h1.1.trans h2, h1.2.trans h2⟩

lemma cavity_resolves (T : ℝ) : ∃ B, Resolves cavity vacuum 1 2 1 1 1 1 B T mode corner3 := by
  obtain ⟨B, hB, hb⟩ := cavity_bounded T
  refine ⟨B, ⟨cavity_valid, cavity_materials, fun c hc => ?_, cavity_fine, le_rfl, cavity_nodal, ⟨fun a f d => mode_smooth a f d, ?_, ?_⟩, hb, hB⟩, cavity_fits T⟩
  · rw [cavity_vacuum hc]; norm_num
  · intro c hc t _ _ y _ d
    rw [cavity_vacuum hc, mode_E]; ring
  · intro c hc t _ _ y _ d
    rw [cavity_vacuum hc, mode_H]; ring

lemma bounded_any (T : ℝ) (k : Nat) {F : Solution 1 (Fin 2 × Fin 3)} (hF : ∀ a f d, ContDiff ℝ ∞ (F a f d)) : ∃ B, 0 ≤ B ∧ Bounded cavity T F k B := by
  have one : ∀ a f d, ∃ B, 0 ≤ B ∧ ∀ t, 0 ≤ t → t ≤ T → ∀ y : Fin 2 → ℝ, (∀ i, 0 ≤ y i ∧ y i ≤ 1) → ∀ l : List (Fin 2), l.length = k →
      |dxs l (F a f d) (t, y)| ≤ B ∧ |dxs l (dt (F a f d)) (t, y)| ≤ B := by
    intro a f d
    obtain ⟨B1, h1, k1⟩ := dxs_bound T k (hF a f d)
    obtain ⟨B2, h2, k2⟩ := dxs_bound T k (contDiff_dt (hF a f d))
    exact ⟨B1 + B2, by positivity, fun t h0 hT y hy l hl => ⟨(k1 t h0 hT y hy l hl).trans (by linarith), (k2 t h0 hT y hy l hl).trans (by linarith)⟩⟩
  choose b h0 hb using one
  obtain ⟨Q, hQ⟩ : ∃ Q : Elem 1 (Fin 2 × Fin 3) ℝ → ℝ, Q = fun a => (b a .E 0 + b a .E 1 + b a .E 2) + (b a .H 0 + b a .H 1 + b a .H 2) := ⟨_, rfl⟩
  have hQ0 : ∀ a, 0 ≤ Q a := by
    intro a
    have := h0 a .E 0; have := h0 a .E 1; have := h0 a .E 2; have := h0 a .H 0; have := h0 a .H 1; have := h0 a .H 2
    rw [hQ]; positivity
  have hQ1 : ∀ a f d, b a f d ≤ Q a := by
    intro a f d
    have := h0 a .E 0; have := h0 a .E 1; have := h0 a .E 2; have := h0 a .H 0; have := h0 a .H 1; have := h0 a .H 2
    rw [hQ]
    cases f <;> fin_cases d <;> simp <;> linarith
  have q1 := hQ0 lower
  have q3 := hQ0 upper
  refine ⟨Q lower + Q upper, by positivity, ?_⟩
  intro c hc t ht hT y hy f d l hl
  have hs := in_square hc hy
  simp only [cavity, pairSetup, List.mem_cons, List.not_mem_nil, or_false] at hc
  rcases hc with rfl | rfl
  · have k1 := hb lower f d t ht hT y hs l hl
    have k2 := hQ1 lower f d
    exact ⟨k1.1.trans (by linarith), k1.2.trans (by linarith)⟩
  · have k1 := hb upper f d t ht hT y hs l hl
    have k2 := hQ1 upper f d
    exact ⟨k1.1.trans (by linarith), k1.2.trans (by linarith)⟩

lemma rate_smooth {F : Solution 1 (Fin 2 × Fin 3)} (hF : ∀ a f d, ContDiff ℝ ∞ (F a f d)) (i : Nat) : ∀ a f d, ContDiff ℝ ∞ (rate^[i] F a f d) := by
  induction i with
  | zero => exact hF
  | succ i ih =>
    intro a f d
    rw [Function.iterate_succ_apply']
    exact contDiff_dt (ih a f d)

lemma bounded_mono {T : ℝ} {F : Solution 1 (Fin 2 × Fin 3)} {k : Nat} {B B' : ℝ} (h : Bounded cavity T F k B) (hB : B ≤ B') : Bounded cavity T F k B' :=
  fun c hc t h0 hT y hy f d l hl => ⟨(h c hc t h0 hT y hy f d l hl).1.trans hB, (h c hc t h0 hT y hy f d l hl).2.trans hB⟩

lemma cavity_regular (T : ℝ) (k : Nat) : ∃ B, 0 ≤ B ∧ Regular cavity T mode 1 k B := by
  induction k with
  | zero =>
    obtain ⟨B1, h1, b1⟩ := bounded_any T 2 (rate_smooth mode_smooth 0)
    obtain ⟨B2, h2, b2⟩ := bounded_any T 0 (rate_smooth mode_smooth 0)
    refine ⟨B1 + B2, by positivity, fun i hi => ?_⟩
    obtain rfl : i = 0 := by omega
    exact ⟨bounded_mono b1 (by linarith), bounded_mono b2 (by linarith)⟩
  | succ k ih =>
    obtain ⟨B, h0, hB⟩ := ih
    obtain ⟨B1, h1, b1⟩ := bounded_any T 2 (rate_smooth mode_smooth (k + 1))
    obtain ⟨B2, h2, b2⟩ := bounded_any T 0 (rate_smooth mode_smooth (k + 1))
    refine ⟨B + B1 + B2, by positivity, fun i hi => ?_⟩
    rcases Nat.lt_or_ge i (k + 1) with hl | hg
    · exact ⟨bounded_mono (hB i (by omega)).1 (by linarith), bounded_mono (hB i (by omega)).2 (by linarith)⟩
    · obtain rfl : i = k + 1 := by omega
      exact ⟨bounded_mono b1 (by linarith), bounded_mono b2 (by linarith)⟩

lemma cavity_all (T : ℝ) (k : Nat) : ∃ B, Resolves cavity vacuum 1 2 1 1 1 1 B T mode corner3 ∧ Regular cavity T mode 1 k B := by
  obtain ⟨B1, r⟩ := cavity_resolves T
  obtain ⟨B2, h2, b2⟩ := cavity_regular T k
  have h1 := r.bound
  exact ⟨B1 + B2, { r with bounded := bounded_mono r.bounded (by linarith), bound := by linarith },
    fun i hi => ⟨bounded_mono (b2 i hi).1 (by linarith), bounded_mono (b2 i hi).2 (by linarith)⟩⟩

end Dgtd.NodalFem.Case
