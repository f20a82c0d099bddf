/-
C80: the delay chosen for sources without one.
-/
import Verif.Props.Dipole
import Mathlib.Data.List.MinMax

set_option linter.unusedSectionVars false

namespace Dgtd.Wave
open Spec
open Dgtd.Config (FieldType)

theorem minOrZero_le (l : List ℝ) (a : ℝ) (h : a ∈ l) : minOrZero l ≤ a := by
  unfold minOrZero
  cases hm : l.min? with
  | none => rw [List.min?_eq_none_iff] at hm; subst hm; cases h
  | some m =>
    rw [List.min?_eq_some_iff] at hm
    exact hm.2 a h

theorem minOrZero_mem (l : List ℝ) (h : l ≠ []) : minOrZero l ∈ l := by
  unfold minOrZero
  cases hm : l.min? with
  | none => rw [List.min?_eq_none_iff] at hm; exact absurd hm h
  | some m =>
    rw [List.min?_eq_some_iff] at hm
    exact hm.1

theorem unit_component (a : V3) (h : dot a a ≤ 1) (d : Fin 3) : |a d| ≤ 1 := by
  rw [abs_le_one_iff_mul_self_le_one]
  unfold dot at h
  have h0 := mul_self_nonneg (a 0)
  have h1 := mul_self_nonneg (a 1)
  have h2 := mul_self_nonneg (a 2)
  fin_cases d
  · show a 0 * a 0 ≤ 1; linarith
  · show a 1 * a 1 ≤ 1; linarith
  · show a 2 * a 2 ≤ 1; linarith

/-- The components of the fields of a plane wave never exceed its profile. -/
theorem eval_le {fn : ℝ → ℝ} {p dir : V3} {ft : FieldType} {w : Planewave} (h : Planewave.make fn p dir ft = some w)
    (x : List ℝ) (t : ℝ) (f : FieldType) (d : Fin 3) :
    |w.eval x t f d| ≤ |fn (dot (pad x) dir / norm dir - t)| := by
  obtain ⟨hw, hp, hd⟩ := make_unit h
  have hq : dot w.pol w.pol = 1 := by rw [hw]; exact unit_dot p hp
  have hk : dot w.prop w.prop = 1 := by rw [hw]; exact unit_dot dir hd
  have hu : dot (pad x) dir / norm dir = dot (pad x) w.prop / 1 := by
    rw [hw]; unfold dot; field_simp
  have hfn : w.fn = fn := by rw [hw]
  have hc : ∀ a b : V3, dot a a = 1 → dot b b = 1 → dot (cross a b) (cross a b) ≤ 1 := by
    intro a b ha hb
    have : dot (cross a b) (cross a b) = dot a a * dot b b - dot a b ^ 2 := by
      simp only [dot, cross, Matrix.cons_val_zero, Matrix.cons_val_one, Matrix.cons_val]; ring
    rw [this, ha, hb]
    have := sq_nonneg (dot a b)
    linarith
  have hdir : |w.dirOf f d| ≤ 1 := by
    apply unit_component
    unfold Planewave.dirOf
    cases f <;> cases w.ftype
    · exact hq.le
    · exact hc _ _ hq hk
    · exact hc _ _ hk hq
    · exact hq.le
  unfold Planewave.eval
  rw [hu, hfn, abs_mul]
  exact mul_le_of_le_one_right (abs_nonneg _) hdir

theorem gaussian_abs (s m u : ℝ) : |gaussian s m u| = Real.exp (-(u - m) ^ 2 / (2 * s ^ 2)) :=
  abs_of_pos (Real.exp_pos _)

theorem modulated_abs (s m f u : ℝ) : |modulated s m f u| ≤ Real.exp (-(u - m) ^ 2 / (2 * s ^ 2)) := by
  unfold modulated
  rw [abs_mul, abs_of_pos (Real.exp_pos _)]
  have e : -(u - m) * (u - m) / (2 * s * s) = -(u - m) ^ 2 / (2 * s ^ 2) := by ring
  rw [e]
  exact mul_le_of_le_one_right (Real.exp_pos _).le (Real.abs_cos_le_one _)

theorem projMean_auto (spread : ℝ) (dir : V3) (h : norm dir ≠ 0) (elems : List (List V3)) :
    projMean (autoMean spread dir elems) dir =
      minOrZero (elems.map fun e => dot (centroid e) (fun d => dir d / norm dir) / 1) - 5 * spread * Real.sqrt 2 := by
  unfold projMean autoMean
  simp only
  generalize minOrZero _ = m
  have h1 := unit_dot dir h
  unfold dot at h1 ⊢
  have : ∀ c : ℝ, (c * (dir 0 / norm dir) * dir 0 + c * (dir 1 / norm dir) * dir 1 + c * (dir 2 / norm dir) * dir 2) / norm dir =
      c * (dir 0 / norm dir * (dir 0 / norm dir) + dir 1 / norm dir * (dir 1 / norm dir) + dir 2 / norm dir * (dir 2 / norm dir)) := by
    intro c; field_simp
  rw [this, h1, mul_one]

/-- **C80**, plane waves, partial: at time zero, at every point that is at most `δ` upstream of the centroid of some
tagged face, no component of the incident field exceeds `exp (-(5·√2·spread - δ)² / (2·spread²))`; with `δ = 0`, in
particular at the centroids, this is `exp (-25)`.  Missing: the same bound at all the points of the faces
(`C80_violated`). -/
theorem C80_upstream_partial (spread : ℝ) (freq : Option ℝ) (pol dir : V3) (elems : List (List V3)) (w : Planewave)
    (h : buildPlanewave spread (autoMean spread dir elems) freq pol dir = some w)
    (e : List V3) (he : e ∈ elems) (p : V3) (δ : ℝ) (hδ : δ ≤ 5 * spread * Real.sqrt 2)
    (hp : dot (centroid e) dir / norm dir - δ ≤ dot p dir / norm dir) (ft : FieldType) (d : Fin 3) :
    |w.eval [p 0, p 1, p 2] 0 ft d| ≤ Real.exp (-(5 * spread * Real.sqrt 2 - δ) ^ 2 / (2 * spread ^ 2)) := by
  have hd : norm dir ≠ 0 := by
    unfold buildPlanewave at h
    cases freq with
    | none => exact (make_unit h).2.2
    | some f => exact (make_unit h).2.2
  have hm := projMean_auto spread dir hd elems
  have hle : minOrZero (elems.map fun e => dot (centroid e) (fun d => dir d / norm dir) / 1) ≤ dot (centroid e) dir / norm dir := by
    have := minOrZero_le _ _ (List.mem_map.2 ⟨e, he, rfl⟩ :
      dot (centroid e) (fun d => dir d / norm dir) / 1 ∈ elems.map fun e => dot (centroid e) (fun d => dir d / norm dir) / 1)
    refine this.trans (le_of_eq ?_)
    unfold dot; field_simp
  have hpad : pad [p 0, p 1, p 2] = p := by
    funext d; fin_cases d <;> rfl
  generalize hM : projMean (autoMean spread dir elems) dir = M at *
  have harg : 5 * spread * Real.sqrt 2 - δ ≤ dot p dir / norm dir - 0 - M := by rw [hm]; linarith
  have hexp : Real.exp (-(dot p dir / norm dir - 0 - M) ^ 2 / (2 * spread ^ 2)) ≤
      Real.exp (-(5 * spread * Real.sqrt 2 - δ) ^ 2 / (2 * spread ^ 2)) := by
    apply Real.exp_le_exp.2
    apply div_le_div_of_nonneg_right _ (by positivity)
    apply neg_le_neg
    apply pow_le_pow_left₀ (by linarith) harg
  unfold buildPlanewave at h
  cases freq with
  | none =>
    refine (eval_le h _ _ _ _).trans ?_
    rw [hpad, hM, gaussian_abs]
    exact hexp
  | some f =>
    refine (eval_le h _ _ _ _).trans ?_
    rw [hpad, hM]
    exact (modulated_abs _ _ _ _).trans hexp

/-- **C80**, plane waves, partial: at the centroids the field at time zero is at most `exp (-25)`. -/
theorem C80_centroids_partial (spread : ℝ) (hs : 0 < spread) (freq : Option ℝ) (pol dir : V3) (elems : List (List V3))
    (w : Planewave) (h : buildPlanewave spread (autoMean spread dir elems) freq pol dir = some w)
    (e : List V3) (he : e ∈ elems) (ft : FieldType) (d : Fin 3) :
    |w.eval [centroid e 0, centroid e 1, centroid e 2] 0 ft d| ≤ Real.exp (-25) := by
  refine (C80_upstream_partial spread freq pol dir elems w h e he (centroid e) 0 (by positivity) (by simp) ft d).trans
    (le_of_eq ?_)
  congr 1
  have : Real.sqrt 2 ^ 2 = 2 := Real.sq_sqrt (by norm_num)
  field_simp
  linear_combination (-25 * spread ^ 2) * this

/-- **C80**, dipole, partial: at time zero the retarded current seen at the centroid of every tagged face is at most
`exp (-25)` of its maximum.  Missing: other points of the faces. -/
theorem C80_dipole_partial (spread : ℝ) (hs : 0 < spread) (elems : List (List V3)) (e : List V3) (he : e ∈ elems) :
    iret (spread * Real.sqrt 2) (0 - autoDipoleMean spread elems - norm (centroid e)) ≤
      Real.exp (-25) * iret (spread * Real.sqrt 2) 0 := by
  have hle : minOrZero (elems.map fun e => norm (centroid e)) ≤ norm (centroid e) :=
    minOrZero_le _ _ (List.mem_map.2 ⟨e, he, rfl⟩)
  have hw : 0 < spread * Real.sqrt 2 := by positivity
  have h5 : 5 * (spread * Real.sqrt 2) ≤ autoDipoleMean spread elems + norm (centroid e) := by
    unfold autoDipoleMean
    have := le_max_right (spread * Real.sqrt 2)
      (5 * spread * Real.sqrt 2 - minOrZero (elems.map fun e => norm (centroid e)) / 1)
    have h1 : minOrZero (elems.map fun e => norm (centroid e)) / 1 ≤ norm (centroid e) := by rw [div_one]; exact hle
    linarith
  generalize autoDipoleMean spread elems = m at *
  generalize norm (centroid e) = r at *
  generalize spread * Real.sqrt 2 = w at *
  unfold iret
  have e0 : w * Real.exp 1 / 2 * 1 * Real.exp (-(0 / w * (0 / w))) = w * Real.exp 1 / 2 * 1 := by simp
  rw [e0, mul_comm (Real.exp (-25))]
  apply mul_le_mul_of_nonneg_left _ (by positivity)
  apply Real.exp_le_exp.2
  have : 5 ≤ (m + r) / w := by rw [le_div_iff₀ hw]; exact h5
  have e1 : (0 - m - r) / w * ((0 - m - r) / w) = ((m + r) / w) ^ 2 := by ring
  rw [e1]
  nlinarith

/-- A wave along x with unit spread and one large face, from x = 0 to x = 20. -/
def exFace : List V3 := [![0, 0, 0], ![20, 0, 0]]

/-- **C80** fails away from the centroids: at the upstream end of a large face the field at time zero is larger than
`exp (-25)`, here more than `exp (-5)`. -/
theorem C80_violated :
    ∃ w, buildPlanewave 1 (autoMean 1 ![1, 0, 0] [exFace]) none ![0, 1, 0] ![1, 0, 0] = some w ∧
      InElement exFace ![0, 0, 0] ∧ Real.exp (-5) < w.eval [0, 0, 0] 0 .E 1 := by
  have hn1 : norm ![1, 0, 0] = 1 := by simp [norm, dot]
  have hn2 : norm ![0, 1, 0] = 1 := by simp [norm, dot]
  have hn : ¬ (norm ![0, 1, 0] = 0 ∨ norm ![1, 0, 0] = 0) := by rw [hn1, hn2]; norm_num
  refine ⟨_, by unfold buildPlanewave Planewave.make; exact if_neg hn, ⟨[1, 0], rfl, by simp, by simp, ?_⟩, ?_⟩
  · intro d; fin_cases d <;> simp [exFace]
  · have hm := projMean_auto 1 ![1, 0, 0] (by rw [hn1]; norm_num) [exFace]
    have hc : minOrZero ([exFace].map fun e => dot (centroid e) (fun d => (![1, 0, 0] : V3) d / norm ![1, 0, 0]) / 1) = 10 := by
      simp [minOrZero, exFace, centroid, dot, hn1]
      norm_num
    rw [hc] at hm
    simp only [Planewave.eval, Planewave.dirOf, hm]
    have hd : dot (pad [0, 0, 0]) (fun d => (![1, 0, 0] : V3) d / norm ![1, 0, 0]) = 0 := by simp [dot, pad]
    rw [hd, hn2]
    simp only [gaussian, Matrix.cons_val_one, Matrix.cons_val_zero, div_one, mul_one]
    apply Real.exp_lt_exp.2
    have h2 : Real.sqrt 2 ^ 2 = 2 := Real.sq_sqrt (by norm_num)
    have h3 : (1.4 : ℝ) < Real.sqrt 2 := by
      apply Real.lt_sqrt_of_sq_lt; norm_num
    nlinarith

/-- The hypotheses of the partial theorems hold for that wave. -/
example : exFace ∈ [exFace] := by simp

end Dgtd.Wave
