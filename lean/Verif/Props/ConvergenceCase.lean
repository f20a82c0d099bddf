/-
C144: a case that meets the hypotheses: the fundamental mode of a square cavity with perfectly conducting walls, on two triangles.
-/
import Verif.Props.Convergence
import Verif.Props.PolynomialCase
import Mathlib.Analysis.SpecialFunctions.Trigonometric.Deriv

set_option linter.unusedSimpArgs false

namespace Dgtd.Galerkin.Case
open MvPolynomial Spec Dgtd.Op Dgtd.Op.Spec Dgtd.Implicit
open Dgtd.Config (Material)
open scoped ContDiff

/-! ### products of functions of one variable -/

/-- A product of functions of time and of the two coordinates. -/
def sep (a b c : ℝ → ℝ) : Event 2 → ℝ := fun z => a z.1 * b (z.2 0) * c (z.2 1)

lemma sep_fderiv {a b c a' b' c' : ℝ → ℝ} (ha : ∀ s, HasDerivAt a (a' s) s) (hb : ∀ s, HasDerivAt b (b' s) s) (hc : ∀ s, HasDerivAt c (c' s) s)
    (z v : Event 2) : fderiv ℝ (sep a b c) z v = a' z.1 * v.1 * b (z.2 0) * c (z.2 1) + a z.1 * (b' (z.2 0) * v.2 0) * c (z.2 1) +
      a z.1 * b (z.2 0) * (c' (z.2 1) * v.2 1) := by
  have h1 : HasFDerivAt (fun z : Event 2 => a z.1) (a' z.1 • ContinuousLinearMap.fst ℝ ℝ (Fin 2 → ℝ)) z := (ha z.1).comp_hasFDerivAt z hasFDerivAt_fst
  have hx : ∀ i : Fin 2, HasFDerivAt (fun z : Event 2 => z.2 i) ((ContinuousLinearMap.proj i).comp (ContinuousLinearMap.snd ℝ ℝ (Fin 2 → ℝ))) z := fun i =>
    ((ContinuousLinearMap.proj (R := ℝ) (φ := fun _ : Fin 2 => ℝ) i).comp (ContinuousLinearMap.snd ℝ ℝ (Fin 2 → ℝ))).hasFDerivAt
  have h2 := (hb (z.2 0)).comp_hasFDerivAt z (hx 0)
  have h3 := (hc (z.2 1)).comp_hasFDerivAt z (hx 1)
  have := ((h1.mul h2).mul h3).fderiv
  change fderiv ℝ (sep a b c) z = _ at this
  rw [this]
  simp
  ring

lemma sep_dt {a b c a' b' c' : ℝ → ℝ} (ha : ∀ s, HasDerivAt a (a' s) s) (hb : ∀ s, HasDerivAt b (b' s) s) (hc : ∀ s, HasDerivAt c (c' s) s) :
    dt (sep a b c) = sep a' b c := by
  funext z; simp [dt, sep_fderiv ha hb hc, sep]

lemma sep_dx0 {a b c a' b' c' : ℝ → ℝ} (ha : ∀ s, HasDerivAt a (a' s) s) (hb : ∀ s, HasDerivAt b (b' s) s) (hc : ∀ s, HasDerivAt c (c' s) s) :
    dx 0 (sep a b c) = sep a b' c := by
  funext z; simp [dx, sep_fderiv ha hb hc, sep]

lemma sep_dx1 {a b c a' b' c' : ℝ → ℝ} (ha : ∀ s, HasDerivAt a (a' s) s) (hb : ∀ s, HasDerivAt b (b' s) s) (hc : ∀ s, HasDerivAt c (c' s) s) :
    dx 1 (sep a b c) = sep a b c' := by
  funext z; simp [dx, sep_fderiv ha hb hc, sep]

lemma sep_smooth {a b c : ℝ → ℝ} (ha : ContDiff ℝ ∞ a) (hb : ContDiff ℝ ∞ b) (hc : ContDiff ℝ ∞ c) : ContDiff ℝ ∞ (sep a b c) := by
  unfold sep
  have hx : ∀ i : Fin 2, ContDiff ℝ ∞ fun z : Event 2 => z.2 i := fun i => (contDiff_apply ℝ ℝ i).comp contDiff_snd
  exact ((ha.comp contDiff_fst).mul (hb.comp (hx 0))).mul (hc.comp (hx 1))

/-! ### the mode -/

/-- Frequency of the mode. -/
noncomputable def freq : ℝ := √2 * Real.pi

lemma freq_pos : 0 < freq := by unfold freq; positivity

lemma freq_sq : freq ^ 2 = 2 * Real.pi ^ 2 := by unfold freq; rw [mul_pow, Real.sq_sqrt (by norm_num)]

noncomputable def sn (k : ℝ) : ℝ → ℝ := fun s => Real.sin (k * s)
noncomputable def cs (k : ℝ) : ℝ → ℝ := fun s => Real.cos (k * s)

lemma sn_deriv (k s : ℝ) : HasDerivAt (sn k) (k * cs k s) s := by
  have := ((hasDerivAt_id s).const_mul k).sin
  unfold sn cs
  simpa [mul_comm] using this

lemma cs_deriv (k s : ℝ) : HasDerivAt (cs k) (-(k * sn k s)) s := by
  have := ((hasDerivAt_id s).const_mul k).cos
  unfold sn cs
  simpa [mul_comm] using this

lemma sn_smooth (k : ℝ) : ContDiff ℝ ∞ (sn k) := Real.contDiff_sin.comp (contDiff_const.mul contDiff_id)
lemma cs_smooth (k : ℝ) : ContDiff ℝ ∞ (cs k) := Real.contDiff_cos.comp (contDiff_const.mul contDiff_id)

/-- `E_z = sin πx sin πy cos ωt`, and the magnetic field that goes with it; the same in both elements. -/
noncomputable def mode : Solution 1 (Fin 3 ⊕ Fin 3) := fun _ f d => match f, d with
  | .E, 2 => sep (cs freq) (sn Real.pi) (sn Real.pi)
  | .H, 0 => sep (fun s => -(Real.pi / freq) * sn freq s) (sn Real.pi) (cs Real.pi)
  | .H, 1 => sep (fun s => Real.pi / freq * sn freq s) (cs Real.pi) (sn Real.pi)
  | _, _ => 0

lemma amp_deriv (a s : ℝ) : HasDerivAt (fun s => a * sn freq s) (a * (freq * cs freq s)) s := (sn_deriv freq s).const_mul a

lemma mode_smooth (a : Elem 1 (Fin 3 ⊕ Fin 3) ℝ) (f : FieldT) (d : Dir) : ContDiff ℝ ∞ (mode a f d) := by
  cases f <;> fin_cases d
  · exact contDiff_const
  · exact contDiff_const
  · exact sep_smooth (cs_smooth _) (sn_smooth _) (sn_smooth _)
  · exact sep_smooth (contDiff_const.mul (sn_smooth _)) (sn_smooth _) (cs_smooth _)
  · exact sep_smooth (contDiff_const.mul (sn_smooth _)) (cs_smooth _) (sn_smooth _)
  · exact contDiff_const

lemma dx_zero (i : Fin 2) : dx i (0 : Event 2 → ℝ) = 0 := by funext z; simp [dx]

lemma dt_zero : dt (0 : Event 2 → ℝ) = 0 := by funext z; simp [dt]

lemma dirDeriv_0 (g : Event 2 → ℝ) : dirDeriv 0 g = dx 0 g := rfl
lemma dirDeriv_1 (g : Event 2 → ℝ) : dirDeriv 1 g = dx 1 g := rfl
lemma dirDeriv_2 (g : Event 2 → ℝ) : dirDeriv 2 g = 0 := rfl

lemma mode_E (a : Elem 1 (Fin 3 ⊕ Fin 3) ℝ) (d : Dir) (z : Event 2) : dt (mode a .E d) z = curlAt (mode a .H) d z := by
  have hf := freq_pos.ne'
  have h2 := freq_sq
  fin_cases d
  · change dt 0 z = dirDeriv 1 0 z - dirDeriv 2 _ z
    rw [dt_zero, dirDeriv_1, dx_zero, dirDeriv_2]; simp
  · change dt 0 z = dirDeriv 2 _ z - dirDeriv 0 0 z
    rw [dt_zero, dirDeriv_0, dx_zero, dirDeriv_2]; simp
  · change dt (sep (cs freq) (sn Real.pi) (sn Real.pi)) z = dirDeriv 0 (sep (fun s => Real.pi / freq * sn freq s) (cs Real.pi) (sn Real.pi)) z -
      dirDeriv 1 (sep (fun s => -(Real.pi / freq) * sn freq s) (sn Real.pi) (cs Real.pi)) z
    rw [dirDeriv_0, dirDeriv_1, sep_dt (cs_deriv _) (sn_deriv _) (sn_deriv _), sep_dx0 (amp_deriv _) (cs_deriv _) (sn_deriv _),
      sep_dx1 (amp_deriv _) (sn_deriv _) (cs_deriv _)]
    simp only [sep]
    field_simp
    linear_combination (-(sn freq z.1 * sn Real.pi (z.2 0) * sn Real.pi (z.2 1))) * h2

lemma mode_H (a : Elem 1 (Fin 3 ⊕ Fin 3) ℝ) (d : Dir) (z : Event 2) : dt (mode a .H d) z = -curlAt (mode a .E) d z := by
  have hf := freq_pos.ne'
  fin_cases d
  · change dt (sep (fun s => -(Real.pi / freq) * sn freq s) (sn Real.pi) (cs Real.pi)) z =
      -(dirDeriv 1 (sep (cs freq) (sn Real.pi) (sn Real.pi)) z - dirDeriv 2 _ z)
    rw [dirDeriv_1, dirDeriv_2, sep_dt (amp_deriv _) (sn_deriv _) (cs_deriv _), sep_dx1 (cs_deriv _) (sn_deriv _) (sn_deriv _)]
    simp only [sep, Pi.zero_apply]
    field_simp
    ring
  · change dt (sep (fun s => Real.pi / freq * sn freq s) (cs Real.pi) (sn Real.pi)) z =
      -(dirDeriv 2 _ z - dirDeriv 0 (sep (cs freq) (sn Real.pi) (sn Real.pi)) z)
    rw [dirDeriv_0, dirDeriv_2, sep_dt (amp_deriv _) (cs_deriv _) (sn_deriv _), sep_dx0 (cs_deriv _) (sn_deriv _) (sn_deriv _)]
    simp only [sep, Pi.zero_apply]
    field_simp
    ring
  · change dt 0 z = -(dirDeriv 0 0 z - dirDeriv 1 0 z)
    rw [dt_zero, dirDeriv_0, dirDeriv_1, dx_zero, dx_zero]; simp

/-! ### the mesh -/

/-- The unit square cut along its diagonal, with perfectly conducting walls. -/
noncomputable def cavity : Setup 1 (Fin 3 ⊕ Fin 3) :=
  { pairSetup with bdr := [(some .PEC, outer lower 0), (some .PEC, outer lower 1), (some .PEC, outer upper 0), (some .PEC, outer upper 1)] }

lemma cavity_valid : ValidMesh cavity 1 1 := by
  have h := pair_valid
  have s := pair_simplicial
  refine ⟨⟨s.dim, s.order, s.geomOrder, s.geom, s.shape, s.cover, s.one, s.two, s.volume, s.surface⟩, h.jacobian, h.independent, h.dofs_nodup, h.dofs_all,
    ?_, h.mass, ?_, ?_, h.no_sgbc⟩
  · intro q hq
    have : ∃ o, (o, q.2) ∈ pairSetup.interior ++ pairSetup.bdr := by
      simp only [cavity, pairSetup, List.cons_append, List.nil_append, List.mem_cons, List.not_mem_nil, or_false] at hq
      rcases hq with rfl | rfl | rfl | rfl | rfl
      · exact ⟨none, by simp [pairSetup]⟩
      · exact ⟨some .PEC, by simp [pairSetup]⟩
      · exact ⟨some .SMA, by simp [pairSetup]⟩
      · exact ⟨some .PMC, by simp [pairSetup]⟩
      · exact ⟨some .PEC, by simp [pairSetup]⟩
    obtain ⟨o, ho⟩ := this
    exact h.inside (o, q.2) ho
  · intro q hq
    simp only [cavity, List.mem_cons, List.not_mem_nil, or_false] at hq
    rcases hq with rfl | rfl | rfl | rfl <;> simp
  · intro q hq
    simp only [cavity, List.mem_cons, List.not_mem_nil, or_false] at hq
    rcases hq with rfl | rfl | rfl | rfl <;> rfl

def vacuum : List (Int × Material ℝ) := [(3, ⟨1, 1, 0⟩), (1, ⟨1, 1, 0⟩)]

lemma cavity_cells {c : Cell 1 (Fin 3 ⊕ Fin 3)} (hc : c ∈ cavity.cells) :
    c = ⟨lower, 1, midpoints, midpoints⟩ ∨ c = ⟨upper, 3, midpoints, midpoints⟩ := by
  simpa [cavity, pairSetup] using hc

lemma cavity_materials : ValidMaterials cavity vacuum := by
  refine ⟨by simp [vacuum], by simp [vacuum], by simp [vacuum], by simp [vacuum], by simp [vacuum], ?_⟩
  intro c hc
  rcases cavity_cells hc with rfl | rfl <;> exact ⟨⟨1, 1, 0⟩, by simp [vacuum, Assoc.find]⟩

lemma cavity_vacuum {c : Cell 1 (Fin 3 ⊕ Fin 3)} (hc : c ∈ cavity.cells) : materialOf vacuum c = ⟨1, 1, 0⟩ := by
  rcases cavity_cells hc with rfl | rfl <;> simp [materialOf, vacuum, Assoc.find]

lemma in_square {c : Cell 1 (Fin 3 ⊕ Fin 3)} (hc : c ∈ cavity.cells) {y : Fin 2 → ℝ} (hy : InElem c.e y) : ∀ i, 0 ≤ y i ∧ y i ≤ 1 := by
  obtain ⟨x, hx, rfl⟩ := hy
  have h0 := hx.1 0
  have h1 := hx.1 1
  have hs := hx.2
  rw [Fin.sum_univ_two] at hs
  intro i
  rcases cavity_cells hc with rfl | rfl
  · fin_cases i <;> simp [lower] <;> constructor <;> linarith
  · fin_cases i <;> simp [upper] <;> constructor <;> linarith

/-- The corners of the reference triangle. -/
noncomputable def corner3 (_ : Elem 1 (Fin 3 ⊕ Fin 3) ℝ) : Nat → Fin 2 → ℝ
  | 0 => ![0, 0]
  | 1 => ![1, 0]
  | _ => ![0, 1]

lemma cavity_shape {c : Cell 1 (Fin 3 ⊕ Fin 3)} (hc : c ∈ cavity.cells) : c.e.shape = linear 1 ∧ c.e.size = 3 := by
  rcases cavity_cells hc with rfl | rfl <;> exact ⟨rfl, rfl⟩

lemma linear_span (q : Poly 2 ℝ) (hq : q.totalDegree ≤ 1) : ∃ a : Nat → ℝ, q = ∑ i ∈ Finset.range 3, C (a i) * linear 1 i := by
  refine ⟨fun i => eval (corner3 lower i) q, MvPolynomial.funext fun x => ?_⟩
  have e1 := eval_affine q hq ![0, 0] ![1, 0] (x 0)
  have key : eval x q = eval ![0, 0] q + x 0 * (eval ![1, 0] q - eval ![0, 0] q) + x 1 * (eval ![0, 1] q - eval ![0, 0] q) := by
    have e : ∀ z, eval z q = ∑ a ∈ q.support, eval z (monomial a (coeff a q)) := fun z => by
      conv_lhs => rw [q.as_sum]
      rw [map_sum]
    rw [e x, e ![0, 0], e ![1, 0], e ![0, 1], ← Finset.sum_sub_distrib, ← Finset.sum_sub_distrib, Finset.mul_sum, Finset.mul_sum,
      ← Finset.sum_add_distrib, ← Finset.sum_add_distrib]
    refine Finset.sum_congr rfl fun a ha => ?_
    rcases degree_one_cases a ((le_totalDegree ha).trans hq) with h0 | ⟨i, h1⟩
    · rw [h0]; simp
    · rw [h1]; fin_cases i <;> simp [eval_monomial] <;> ring
  rw [key]
  simp [Finset.sum_range_succ, linear, Fin.sum_univ_two, corner3]
  ring

lemma cavity_nodal : Nodal cavity 1 1 corner3 := by
  refine ⟨fun c hc q hq => ?_, fun c hc i hi => ?_, fun c hc i hi j hj => ?_, fun c hc x hx => ?_⟩
  · rw [(cavity_shape hc).1, (cavity_shape hc).2]; exact linear_span q hq
  · rw [(cavity_shape hc).2] at hi
    interval_cases i <;> exact ⟨fun k => by fin_cases k <;> simp [corner3], by simp [corner3, Fin.sum_univ_two]⟩
  · rw [(cavity_shape hc).2] at hi hj
    rw [(cavity_shape hc).1]
    interval_cases i <;> interval_cases j <;> simp [corner3, linear, Fin.sum_univ_two]
  · rw [(cavity_shape hc).1, (cavity_shape hc).2]
    have h0 := hx.1 0
    have h1 := hx.1 1
    have hs := hx.2
    rw [Fin.sum_univ_two] at hs
    simp [Finset.sum_range_succ, linear, Fin.sum_univ_two]
    rw [abs_of_nonneg h0, abs_of_nonneg h1, abs_of_nonneg (by linarith)]
    linarith

lemma cavity_weights : ∀ q ∈ cavity.interior ++ cavity.bdr, ∀ x ∈ q.2.rule, 0 ≤ x.1 := by
  intro q hq x hx
  have : q.2.rule = eight := by
    simp only [cavity, pairSetup, List.cons_append, List.nil_append, List.mem_cons, List.not_mem_nil, or_false] at hq
    rcases hq with rfl | rfl | rfl | rfl | rfl <;> rfl
  rw [this] at hx
  simp only [eight, List.mem_cons, List.not_mem_nil, or_false] at hx
  rcases hx with rfl | rfl | rfl | rfl | rfl | rfl | rfl | rfl <;> norm_num

lemma cavity_fine : Fineness cavity 1 2 := by
  refine ⟨one_pos, by norm_num, fun c hc y y' hy hy' i => ?_, ?_, ?_, cavity_weights⟩
  · have h1 := in_square hc hy i
    have h2 := in_square hc hy' i
    rw [abs_le]; constructor <;> linarith
  · rintro g e ⟨⟨o, ho⟩, he⟩ x y hx hy
    have hdet : eval y e.jac.det = 1 := by
      obtain ⟨⟨c, hc, e1⟩, e2⟩ := sides_cells cavity_valid ho
      obtain ⟨c, hc, rfl⟩ : ∃ c ∈ cavity.cells, e = c.e := by
        rcases he with rfl | ⟨s, hs, rfl⟩
        · exact ⟨c, hc, e1⟩
        · exact e2 s hs
      rcases cavity_cells hc with rfl | rfl
      · simp [Elem.jac, lower, Matrix.det_fin_two, pderiv_X]
      · simp [Elem.jac, upper, Matrix.det_fin_two, pderiv_X]
    rw [hdet, one_mul, mul_one]
    change √(((normal g.s1).map fun c => eval x c ^ 2).sum) ≤ 2
    rw [Real.sqrt_le_left (by norm_num)]
    obtain ⟨n0, n1, n2, n3, n4⟩ := normals
    simp only [cavity, pairSetup, List.cons_append, List.nil_append, List.mem_cons, List.not_mem_nil, or_false, Prod.mk.injEq] at ho
    rcases ho with ⟨-, rfl⟩ | ⟨-, rfl⟩ | ⟨-, rfl⟩ | ⟨-, rfl⟩ | ⟨-, rfl⟩
    · rw [n0]; norm_num
    · rw [n1]; norm_num
    · rw [n2]; norm_num
    · rw [n3]; norm_num
    · rw [n4]; norm_num
  · intro q hq
    simp only [cavity, pairSetup, List.mem_cons, List.not_mem_nil, or_false] at hq
    subst hq
    simp

lemma sn_int : sn Real.pi 0 = 0 ∧ sn Real.pi 1 = 0 := by simp [sn]

lemma mode_wall (a : Elem 1 (Fin 3 ⊕ Fin 3) ℝ) {t x y : ℝ} (h : x = 0 ∨ x = 1 ∨ y = 0 ∨ y = 1) (d : Dir) : mode a .E d (t, ![x, y]) = 0 := by
  fin_cases d
  · rfl
  · rfl
  · change cs freq t * sn Real.pi x * sn Real.pi y = 0
    rcases h with rfl | rfl | rfl | rfl <;> simp [sn_int]

lemma cavity_fits (T : ℝ) : Fits cavity T mode := by
  obtain ⟨b0, b1⟩ := bary1
  refine ⟨?_, ?_, ?_⟩
  · intro q hq _ s hs t _ _ x hx f d
    simp only [cavity, pairSetup, List.mem_cons, List.not_mem_nil, or_false] at hq
    subst hq
    obtain rfl : s = ⟨upper, none, Equiv.swap 0 1⟩ := by simpa using hs.symm
    have p1 : pos (⟨lower, none, 1⟩ : Side 1 (Fin 3 ⊕ Fin 3) ℝ) x = ![1 - x 0, 1 - (1 - x 0)] := by
      funext k; fin_cases k <;> simp [pos, Side.restrict, lower, loc, b0, b1]
    have p2 : pos (⟨upper, none, Equiv.swap 0 1⟩ : Side 1 (Fin 3 ⊕ Fin 3) ℝ) x = ![1 - x 0, 1 - (1 - x 0)] := by
      funext k; fin_cases k <;> simp [pos, Side.restrict, upper, loc, b0, b1]
    have : ∀ k, beside mode t (⟨lower, none, 1⟩ : Side 1 (Fin 3 ⊕ Fin 3) ℝ) x f k - beside mode t ⟨upper, none, Equiv.swap 0 1⟩ x f k = 0 := by
      intro k
      unfold beside
      rw [p1, p2]
      exact sub_self _
    simp only [cross, this]; ring
  · intro q hq c hc
    simp only [cavity, pairSetup, List.mem_cons, List.not_mem_nil, or_false] at hq
    subst hq; simp at hc
  · intro q hq c hc t _ _ x hx
    have zero : ∀ {v : Dir → ℝ} {ν : Dir → ℝ}, (∀ d, v d = 0) → ∀ d, cross ν v d = 0 := fun h d => by simp [cross, h]
    simp only [cavity, List.mem_cons, List.not_mem_nil, or_false] at hq
    rcases hq with rfl | rfl | rfl | rfl
    · obtain rfl := Option.some.inj hc
      have p1 : pos (outer lower 0).s1 x = ![0, 1 - x 0] := by
        funext k; fin_cases k <;> simp [pos, Side.restrict, lower, outer, loc, b0, b1]
      exact zero fun d => by unfold beside; rw [p1]; exact mode_wall _ (Or.inl rfl) d
    · obtain rfl := Option.some.inj hc
      have p1 : pos (outer lower 1).s1 x = ![x 0, 0] := by
        funext k; fin_cases k <;> simp [pos, Side.restrict, lower, outer, loc, b0, b1]
      exact zero fun d => by unfold beside; rw [p1]; exact mode_wall _ (Or.inr (Or.inr (Or.inl rfl))) d
    · obtain rfl := Option.some.inj hc
      have p1 : pos (outer upper 0).s1 x = ![1, x 0] := by
        funext k; fin_cases k <;> simp [pos, Side.restrict, upper, outer, loc, b0, b1]
      exact zero fun d => by unfold beside; rw [p1]; exact mode_wall _ (Or.inr (Or.inl rfl)) d
    · obtain rfl := Option.some.inj hc
      have p1 : pos (outer upper 1).s1 x = ![1 - x 0, 1] := by
        funext k; fin_cases k <;> simp [pos, Side.restrict, upper, outer, loc, b0, b1]
      exact zero fun d => by unfold beside; rw [p1]; exact mode_wall _ (Or.inr (Or.inr (Or.inr rfl))) d

/-! ### bounds -/

lemma dxs_smooth {g : Event 2 → ℝ} (hg : ContDiff ℝ ∞ g) (l : List (Fin 2)) : ContDiff ℝ ∞ (dxs l g) := by
  induction l with
  | nil => exact hg
  | cons i l ih => exact contDiff_dx ih i

lemma bound_one (T : ℝ) {g : Event 2 → ℝ} (hg : Continuous g) :
    ∃ B, 0 ≤ B ∧ ∀ t, 0 ≤ t → t ≤ T → ∀ y : Fin 2 → ℝ, (∀ i, 0 ≤ y i ∧ y i ≤ 1) → |g (t, y)| ≤ B := by
  have hc : IsCompact (Set.Icc (0 : ℝ) T ×ˢ Set.pi Set.univ fun _ : Fin 2 => Set.Icc (0 : ℝ) 1) :=
    isCompact_Icc.prod (isCompact_univ_pi fun _ => isCompact_Icc)
  obtain ⟨B, hB⟩ := hc.exists_bound_of_continuousOn hg.continuousOn
  refine ⟨max B 0, le_max_right _ _, fun t h0 hT y hy => ?_⟩
  exact (hB (t, y) ⟨⟨h0, hT⟩, fun i _ => ⟨(hy i).1, (hy i).2⟩⟩).trans (le_max_left _ _)

lemma cavity_bounded (T : ℝ) : ∃ B, 0 ≤ B ∧ Bounded cavity T mode 2 B := by
  have hb : ∀ k : (FieldT × Dir) × (Fin 2 × Fin 2) , ∃ B, 0 ≤ B ∧ ∀ t, 0 ≤ t → t ≤ T → ∀ y : Fin 2 → ℝ, (∀ i, 0 ≤ y i ∧ y i ≤ 1) →
      |dxs [k.2.1, k.2.2] (mode lower k.1.1 k.1.2) (t, y)| ≤ B ∧ |dxs [k.2.1, k.2.2] (dt (mode lower k.1.1 k.1.2)) (t, y)| ≤ B := by
    intro k
    obtain ⟨B1, h1, k1⟩ := bound_one T (dxs_smooth (mode_smooth lower k.1.1 k.1.2) [k.2.1, k.2.2]).continuous
    obtain ⟨B2, h2, k2⟩ := bound_one T (dxs_smooth (contDiff_dt (mode_smooth lower k.1.1 k.1.2)) [k.2.1, k.2.2]).continuous
    exact ⟨B1 + B2, by positivity, fun t h0 hT y hy => ⟨(k1 t h0 hT y hy).trans (by linarith), (k2 t h0 hT y hy).trans (by linarith)⟩⟩
  choose b h0 hb using hb
  have hfin : ∃ B, 0 ≤ B ∧ ∀ k ∈ ([.E, .H] : List FieldT) ×ˢ (List.finRange 3) ×ˢ (List.finRange 2) ×ˢ (List.finRange 2), b ((k.1, k.2.1), k.2.2) ≤ B := by
    generalize ([.E, .H] : List FieldT) ×ˢ (List.finRange 3) ×ˢ (List.finRange 2) ×ˢ (List.finRange 2) = l
    induction l with
    | nil => exact ⟨0, le_rfl, by simp⟩
    | cons k l ih =>
      obtain ⟨B, hB, h⟩ := ih
      refine ⟨max B (b ((k.1, k.2.1), k.2.2)), hB.trans (le_max_left _ _), fun j hj => ?_⟩
      rcases List.mem_cons.1 hj with rfl | hj
      · exact le_max_right _ _
      · exact (h j hj).trans (le_max_left _ _)
  obtain ⟨B, hB, hmax⟩ := hfin
  refine ⟨B, hB, fun c hc t ht hT y hy f d l hl => ?_⟩
  obtain ⟨i, j, rfl⟩ : ∃ i j, l = [i, j] := by
    match l, hl with
    | [i, j], _ => exact ⟨i, j, rfl⟩
  have h1 := hb ((f, d), (i, j)) t ht hT y (in_square hc hy)
  have h2 : b ((f, d), (i, j)) ≤ B := hmax (f, d, i, j) (by
    simp only [List.mem_product, List.mem_finRange, and_true]
    cases f <;> simp)
  exact ⟨h1.1.trans h2, h1.2.trans h2⟩

lemma cavity_resolves (T : ℝ) : ∃ B, Resolves cavity vacuum 1 2 1 1 1 1 B T mode corner3 := by
  obtain ⟨B, hB, hb⟩ := cavity_bounded T
  refine ⟨B, ⟨cavity_valid, cavity_materials, fun c hc => ?_, cavity_fine, le_rfl, cavity_nodal, ⟨fun a f d => mode_smooth a f d, ?_, ?_⟩, hb, hB⟩, cavity_fits T⟩
  · rw [cavity_vacuum hc]; norm_num
  · intro c hc t _ _ y _ d
    rw [cavity_vacuum hc, mode_E]; ring
  · intro c hc t _ _ y _ d
    rw [cavity_vacuum hc, mode_H]; ring

example (T : ℝ) : ∃ K B, 0 ≤ K ∧ ∃ P, cavity.fem vacuum = .ok P ∧ ∀ u : ℝ → State (Fin 3 ⊕ Fin 3) ℝ,
    (∀ t f d i, HasDerivAt (fun t => u t f d i) (globalMult P.prob (u t) f d i) t) → Sampled cavity corner3 mode 0 (u 0) →
      ∀ t, 0 ≤ t → t ≤ T → ∀ s, Sampled cavity corner3 mode t s →
        fieldEnergy cavity vacuum (u t - s) ≤ (K * (1 + t) * B * 1 ^ 1) ^ 2 * volume cavity := by
  obtain ⟨K, hK, h⟩ := C144_solution 1 1 2 1 1 1 1 one_pos le_rfl zero_le_one zero_le_one
  obtain ⟨B, hB⟩ := cavity_resolves T
  exact ⟨K, B, hK, h _ cavity vacuum 1 B T mode corner3 rfl hB⟩

end Dgtd.Galerkin.Case
