/-
C34, C79, C80: incident fields.
-/
import Verif.Spec.Wave
import Verif.Props.Spherical
import Mathlib.Tactic.Ring
import Mathlib.Tactic.FieldSimp
import Mathlib.Tactic.LinearCombination
import Mathlib.Tactic.FinCases
import Mathlib.Analysis.SpecialFunctions.Sqrt
import Mathlib.Analysis.Calculus.Deriv.Comp

set_option linter.unusedSectionVars false

namespace Dgtd.Wave
open Spec
open Dgtd.Config (FieldType)

/-! ### Vectors -/

theorem dot_self_nonneg (a : V3) : 0 ≤ dot a a := by
  unfold dot
  linarith [mul_self_nonneg (a 0), mul_self_nonneg (a 1), mul_self_nonneg (a 2)]

theorem norm_sq (a : V3) : norm a * norm a = dot a a := Real.mul_self_sqrt (dot_self_nonneg a)

theorem norm_nonneg (a : V3) : 0 ≤ norm a := Real.sqrt_nonneg _

theorem unit_dot (a : V3) (h : norm a ≠ 0) : dot (fun d => a d / norm a) (fun d => a d / norm a) = 1 := by
  have := norm_sq a
  unfold dot at this ⊢
  field_simp
  nlinarith [this]

theorem unit_dot_zero (a b : V3) (h : dot a b = 0) : dot (fun d => a d / norm a) (fun d => b d / norm b) = 0 := by
  unfold dot at h ⊢
  have : a 0 / norm a * (b 0 / norm b) + a 1 / norm a * (b 1 / norm b) + a 2 / norm a * (b 2 / norm b) =
      (a 0 * b 0 + a 1 * b 1 + a 2 * b 2) * ((norm a)⁻¹ * (norm b)⁻¹) := by simp only [div_eq_mul_inv]; ring
  rw [this, h, zero_mul]

/-- What the constructor guarantees. -/
theorem make_unit {fn : ℝ → ℝ} {p dir : V3} {ft : FieldType} {w : Planewave} (h : Planewave.make fn p dir ft = some w) :
    w = ⟨fn, fun d => p d / norm p, fun d => dir d / norm dir, ft⟩ ∧ norm p ≠ 0 ∧ norm dir ≠ 0 := by
  unfold Planewave.make at h
  by_cases hc : norm p = 0 ∨ norm dir = 0
  · rw [if_pos hc] at h; cases h
  · rw [if_neg hc] at h
    cases h
    exact ⟨rfl, fun h => hc (.inl h), fun h => hc (.inr h)⟩

/-- The facts about the two unit vectors that everything below uses. -/
theorem make_frame {fn : ℝ → ℝ} {p dir : V3} {ft : FieldType} {w : Planewave} (h : Planewave.make fn p dir ft = some w)
    (ho : dot p dir = 0) : dot w.pol w.pol = 1 ∧ dot w.prop w.prop = 1 ∧ dot w.pol w.prop = 0 := by
  obtain ⟨rfl, h1, h2⟩ := make_unit h
  exact ⟨unit_dot p h1, unit_dot dir h2, unit_dot_zero p dir ho⟩

/-! ### Plane waves -/

/-- A zero polarisation or direction is rejected, and nothing else is. -/
theorem C34_rejects (fn : ℝ → ℝ) (p dir : V3) (ft : FieldType) :
    Planewave.make fn p dir ft = none ↔ (∀ d, p d = 0) ∨ (∀ d, dir d = 0) := by
  have key : ∀ a : V3, norm a = 0 ↔ ∀ d, a d = 0 := by
    intro a
    unfold norm
    rw [Real.sqrt_eq_zero (dot_self_nonneg a)]
    unfold dot
    constructor
    · intro h d
      have h0 := mul_self_nonneg (a 0)
      have h1 := mul_self_nonneg (a 1)
      have h2 := mul_self_nonneg (a 2)
      fin_cases d
      · exact mul_self_eq_zero.1 (show a 0 * a 0 = 0 by linarith)
      · exact mul_self_eq_zero.1 (show a 1 * a 1 = 0 by linarith)
      · exact mul_self_eq_zero.1 (show a 2 * a 2 = 0 by linarith)
    · intro h; simp [h]
  unfold Planewave.make
  rw [← key, ← key]
  by_cases hc : norm p = 0 ∨ norm dir = 0
  · simp [hc]
  · simp [hc]

/-- **C34**: for orthogonal polarisation and propagation, at all positions and times, the two fields are perpendicular
to the propagation and to each other. -/
theorem C34_transverse {fn : ℝ → ℝ} {p dir : V3} {ft : FieldType} {w : Planewave}
    (h : Planewave.make fn p dir ft = some w) (ho : dot p dir = 0) (x : List ℝ) (t : ℝ) :
    dot (w.eval x t .E) dir = 0 ∧ dot (w.eval x t .H) dir = 0 ∧ dot (w.eval x t .E) (w.eval x t .H) = 0 := by
  obtain ⟨hq, hk, hqk⟩ := make_frame h ho
  obtain ⟨hw, _, hd⟩ := make_unit h
  have hdir : ∀ d, dir d = norm dir * w.prop d := by
    intro d; rw [hw]; field_simp
  generalize norm dir = N at hdir
  unfold dot at hq hk hqk ⊢
  simp only [hdir]
  unfold Planewave.eval
  generalize w.fn (dot (pad x) w.prop / 1 - t) = v
  unfold Planewave.dirOf cross
  cases w.ftype
  · simp only [Matrix.cons_val_zero, Matrix.cons_val_one, Matrix.cons_val]
    refine ⟨by linear_combination (v * N) * hqk, by ring, by ring⟩
  · simp only [Matrix.cons_val_zero, Matrix.cons_val_one, Matrix.cons_val]
    refine ⟨by ring, by linear_combination (v * N) * hqk, by ring⟩

/-- **C34**: the two fields have the same magnitude, that of the time profile at the retarded time. -/
theorem C34_magnitude {fn : ℝ → ℝ} {p dir : V3} {ft : FieldType} {w : Planewave}
    (h : Planewave.make fn p dir ft = some w) (ho : dot p dir = 0) (x : List ℝ) (t : ℝ) :
    norm (w.eval x t .E) = |fn (dot (pad x) dir / norm dir - t)| ∧
    norm (w.eval x t .H) = |fn (dot (pad x) dir / norm dir - t)| := by
  obtain ⟨hq, hk, hqk⟩ := make_frame h ho
  obtain ⟨hw, _, hd⟩ := make_unit h
  have hu : dot (pad x) dir / norm dir = dot (pad x) w.prop / 1 := by
    rw [hw]; unfold dot; field_simp
  have hfn : w.fn = fn := by rw [hw]
  rw [hu, ← hfn]
  unfold norm
  rw [← Real.sqrt_mul_self_eq_abs]
  unfold Planewave.eval
  generalize w.fn (dot (pad x) w.prop / 1 - t) = v
  unfold dot at hq hk hqk ⊢
  unfold Planewave.dirOf cross
  have lag : (w.prop 1 * w.pol 2 - w.prop 2 * w.pol 1) ^ 2 + (w.prop 2 * w.pol 0 - w.prop 0 * w.pol 2) ^ 2 +
      (w.prop 0 * w.pol 1 - w.prop 1 * w.pol 0) ^ 2 = 1 := by
    linear_combination (w.prop 0 * w.prop 0 + w.prop 1 * w.prop 1 + w.prop 2 * w.prop 2) * hq + hk -
      (w.pol 0 * w.prop 0 + w.pol 1 * w.prop 1 + w.pol 2 * w.prop 2) * hqk
  cases w.ftype
  · simp only [Matrix.cons_val_zero, Matrix.cons_val_one, Matrix.cons_val]
    refine ⟨congrArg _ (by linear_combination (v * v) * hq), congrArg _ (by linear_combination (v * v) * lag)⟩
  · simp only [Matrix.cons_val_zero, Matrix.cons_val_one, Matrix.cons_val]
    refine ⟨congrArg _ (by linear_combination (v * v) * lag), congrArg _ (by linear_combination (v * v) * hq)⟩

/-- **C34**: the Poynting vector points along the propagation, with the square of the profile as magnitude. -/
theorem C34_poynting {fn : ℝ → ℝ} {p dir : V3} {ft : FieldType} {w : Planewave}
    (h : Planewave.make fn p dir ft = some w) (ho : dot p dir = 0) (x : List ℝ) (t : ℝ) (d : Fin 3) :
    cross (w.eval x t .E) (w.eval x t .H) d = fn (dot (pad x) dir / norm dir - t) ^ 2 * (dir d / norm dir) := by
  obtain ⟨hq, hk, hqk⟩ := make_frame h ho
  obtain ⟨hw, _, hd⟩ := make_unit h
  have hu : dot (pad x) dir / norm dir = dot (pad x) w.prop / 1 := by
    rw [hw]; unfold dot; field_simp
  have hfn : w.fn = fn := by rw [hw]
  have hdd : dir d / norm dir = w.prop d := by rw [hw]
  rw [hu, ← hfn, hdd]
  unfold Planewave.eval
  generalize w.fn (dot (pad x) w.prop / 1 - t) = v
  unfold dot at hq hk hqk
  unfold Planewave.dirOf cross
  cases w.ftype <;> fin_cases d <;>
    simp only [Matrix.cons_val_zero, Matrix.cons_val_one, Matrix.cons_val, Fin.zero_eta, Fin.mk_one, Fin.reduceFinMk]
  · linear_combination (v * v * w.prop 0) * hq - (v * v * w.pol 0) * hqk
  · linear_combination (v * v * w.prop 1) * hq - (v * v * w.pol 1) * hqk
  · linear_combination (v * v * w.prop 2) * hq - (v * v * w.pol 2) * hqk
  · linear_combination (v * v * w.prop 0) * hq - (v * v * w.pol 0) * hqk
  · linear_combination (v * v * w.prop 1) * hq - (v * v * w.pol 1) * hqk
  · linear_combination (v * v * w.prop 2) * hq - (v * v * w.pol 2) * hqk

/-- **C34**: the value depends only on the retarded time: two events with the same one see the same fields. -/
theorem C34_retarded {fn : ℝ → ℝ} {p dir : V3} {ft : FieldType} {w : Planewave}
    (h : Planewave.make fn p dir ft = some w) (x y : List ℝ) (t s : ℝ)
    (hr : t - dot (pad x) dir / norm dir = s - dot (pad y) dir / norm dir) (f : FieldType) (d : Fin 3) :
    w.eval x t f d = w.eval y s f d := by
  obtain ⟨hw, _, hd⟩ := make_unit h
  have hu : ∀ x, dot (pad x) dir / norm dir = dot (pad x) w.prop / 1 := by
    intro x; rw [hw]; unfold dot; field_simp
  rw [hu, hu] at hr
  unfold Planewave.eval
  have : dot (pad x) w.prop / 1 - t = dot (pad y) w.prop / 1 - s := by linarith
  rw [this]

/-- **C34**: the field given by the user points along the given polarisation. -/
theorem C34_polarisation {fn : ℝ → ℝ} {p dir : V3} {ft : FieldType} {w : Planewave}
    (h : Planewave.make fn p dir ft = some w) (x : List ℝ) (t : ℝ) (d : Fin 3) :
    w.eval x t ft d = fn (dot (pad x) dir / norm dir - t) * (p d / norm p) := by
  obtain ⟨hw, _, hd⟩ := make_unit h
  have hu : dot (pad x) dir / norm dir = dot (pad x) w.prop / 1 := by
    rw [hw]; unfold dot; field_simp
  rw [hu, hw]
  cases ft <;> rfl

/-- Partial derivatives of a travelling profile. -/
theorem partials_travel (fn : ℝ → ℝ) (k : V3) (c x y z t f' : ℝ)
    (hf : HasDerivAt fn f' (dot (pad [x, y, z]) k / 1 - t)) :
    Partials (fun x y z t => fn (dot (pad [x, y, z]) k / 1 - t) * c) x y z t (k 0 * f' * c) (k 1 * f' * c) (k 2 * f' * c)
      (-f' * c) := by
  have e : ∀ x y z t : ℝ, dot (pad [x, y, z]) k / 1 - t = x * k 0 + y * k 1 + z * k 2 - t := by
    intro x y z t; simp [dot, pad]
  simp only [e] at hf ⊢
  refine ⟨?_, ?_, ?_, ?_⟩
  · have h1 : HasDerivAt (fun a : ℝ => a * k 0 + y * k 1 + z * k 2 - t) (k 0) x := by
      have := ((((hasDerivAt_id x).mul_const (k 0)).add_const (y * k 1)).add_const (z * k 2)).sub_const t
      simpa using this
    have := (HasDerivAt.comp x hf h1).mul_const c
    rw [mul_comm f' (k 0)] at this
    exact this
  · have h1 : HasDerivAt (fun a : ℝ => x * k 0 + a * k 1 + z * k 2 - t) (k 1) y := by
      have := ((((hasDerivAt_id y).mul_const (k 1)).const_add (x * k 0)).add_const (z * k 2)).sub_const t
      simpa using this
    have := (HasDerivAt.comp y hf h1).mul_const c
    rw [mul_comm f' (k 1)] at this
    exact this
  · have h1 : HasDerivAt (fun a : ℝ => x * k 0 + y * k 1 + a * k 2 - t) (k 2) z := by
      have := (((hasDerivAt_id z).mul_const (k 2)).const_add (x * k 0 + y * k 1)).sub_const t
      simpa using this
    have := (HasDerivAt.comp z hf h1).mul_const c
    rw [mul_comm f' (k 2)] at this
    exact this
  · have h1 : HasDerivAt (fun a : ℝ => x * k 0 + y * k 1 + z * k 2 - a) (-1) t := by
      have := (hasDerivAt_id t).const_sub (x * k 0 + y * k 1 + z * k 2)
      simpa using this
    have := (HasDerivAt.comp t hf h1).mul_const c
    rw [mul_neg_one] at this
    exact this

/-- **C34**: a plane wave with orthogonal polarisation and a differentiable profile satisfies Maxwell's equations in
vacuum everywhere and at all times. -/
theorem C34_maxwell {fn : ℝ → ℝ} {p dir : V3} {ft : FieldType} {w : Planewave}
    (h : Planewave.make fn p dir ft = some w) (ho : dot p dir = 0) (hd : Differentiable ℝ fn) (x y z t : ℝ) :
    MaxwellAt (fun x y z t => w.eval [x, y, z] t .E) (fun x y z t => w.eval [x, y, z] t .H) x y z t := by
  obtain ⟨hq, hk, hqk⟩ := make_frame h ho
  have hfn : w.fn = fn := by rw [(make_unit h).1]
  obtain ⟨f', hf⟩ : ∃ f', HasDerivAt w.fn f' (dot (pad [x, y, z]) w.prop / 1 - t) :=
    ⟨_, by rw [hfn]; exact (hd _).hasDerivAt⟩
  refine ⟨fun c => ![w.prop 0 * f' * w.dirOf .E c, w.prop 1 * f' * w.dirOf .E c, w.prop 2 * f' * w.dirOf .E c, -f' * w.dirOf .E c],
    fun c => ![w.prop 0 * f' * w.dirOf .H c, w.prop 1 * f' * w.dirOf .H c, w.prop 2 * f' * w.dirOf .H c, -f' * w.dirOf .H c],
    fun c => partials_travel w.fn w.prop _ x y z t f' hf, fun c => partials_travel w.fn w.prop _ x y z t f' hf, ?_⟩
  unfold dot at hq hk hqk
  unfold Planewave.dirOf cross
  cases w.ftype <;> simp only [Matrix.cons_val_zero, Matrix.cons_val_one, Matrix.cons_val]
  · refine ⟨?_, ?_, ?_, ?_, ?_, ?_, ?_, ?_⟩
    · linear_combination (f' * w.pol 0) * hk - (f' * w.prop 0) * hqk
    · linear_combination (f' * w.pol 1) * hk - (f' * w.prop 1) * hqk
    · linear_combination (f' * w.pol 2) * hk - (f' * w.prop 2) * hqk
    · ring
    · ring
    · ring
    · linear_combination f' * hqk
    · ring
  · refine ⟨?_, ?_, ?_, ?_, ?_, ?_, ?_, ?_⟩
    · ring
    · ring
    · ring
    · linear_combination (f' * w.pol 0) * hk - (f' * w.prop 0) * hqk
    · linear_combination (f' * w.pol 1) * hk - (f' * w.prop 1) * hqk
    · linear_combination (f' * w.pol 2) * hk - (f' * w.prop 2) * hqk
    · ring
    · linear_combination f' * hqk

theorem gaussian_differentiable (s m : ℝ) : Differentiable ℝ (gaussian s m) := by
  unfold gaussian
  fun_prop

theorem modulated_differentiable (s m f : ℝ) : Differentiable ℝ (modulated s m f) := by
  unfold modulated
  fun_prop

/-- **C34** for the plane waves that the driver builds. -/
theorem C34_built (spread : ℝ) (mean : V3) (freq : Option ℝ) (pol dir : V3) (w : Planewave)
    (h : buildPlanewave spread mean freq pol dir = some w) (ho : dot pol dir = 0) (x y z t : ℝ) :
    MaxwellAt (fun x y z t => w.eval [x, y, z] t .E) (fun x y z t => w.eval [x, y, z] t .H) x y z t := by
  unfold buildPlanewave at h
  cases freq with
  | none => exact C34_maxwell h ho (gaussian_differentiable _ _) x y z t
  | some f => exact C34_maxwell h ho (modulated_differentiable _ _ _) x y z t

/-- A wave along z polarised along x, given with vectors that are not unit vectors. -/
example : ∃ w, buildPlanewave 1 ![0, 0, -7] none ![2, 0, 0] ![0, 0, 3] = some w ∧ dot ![2, 0, 0] ![0, 0, 3] = 0 := by
  have hn : ¬ (norm ![2, 0, 0] = 0 ∨ norm ![0, 0, 3] = 0) := ?_
  · exact ⟨_, by unfold buildPlanewave Planewave.make; exact if_neg hn, by simp [dot]⟩
  rintro (h | h)
  · have h2 := norm_sq ![2, 0, 0]
    rw [h] at h2; simp [dot] at h2
  · have h2 := norm_sq ![0, 0, 3]
    rw [h] at h2; simp [dot] at h2

end Dgtd.Wave
