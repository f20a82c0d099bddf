/-
C24: the local frame of a thin-layer face is a rotation.
-/
import Verif.Model.FaceRotation
import Mathlib.Tactic.Ring
import Mathlib.Tactic.Linarith
import Mathlib.Tactic.LinearCombination
import Mathlib.Tactic.FinCases
import Mathlib.Tactic.NormNum
import Mathlib.Tactic.FieldSimp
import Mathlib.LinearAlgebra.CrossProduct
import Mathlib.LinearAlgebra.Matrix.Determinant.Basic
import Mathlib.LinearAlgebra.Matrix.NonsingularInverse

namespace Dgtd.FaceRotation

open Matrix

/-- The vector with the components of `n`, as the code reads it. -/
def vec (n : List ℝ) : Fin 3 → ℝ := ![n.getD 0 0, n.getD 1 0, n.getD 2 0]

lemma readNormal_eq {n : List ℝ} (h : n ≠ []) :
    readNormal n = some (n.getD 0 0, n.getD 1 0, n.getD 2 0) := by
  match n, h with
  | [x], _ => simp [readNormal]
  | [x, y], _ => simp [readNormal]
  | x :: y :: z :: r, _ => simp [readNormal]

lemma normalise_some {x y z a b c : ℝ} (h : normalise x y z = some (a, b, c)) :
    a * a + b * b + c * c = 1 ∧
      ∃ len, 0 < len ∧ len * len = x * x + y * y + z * z ∧ x = len * a ∧ y = len * b ∧ z = len * c := by
  simp only [normalise] at h
  split at h
  · exact absurd h (by simp)
  · rename_i hl
    have hp : 0 < Real.sqrt (x * x + y * y + z * z) := lt_of_le_of_ne (Real.sqrt_nonneg _) (Ne.symm hl)
    have hs : Real.sqrt (x * x + y * y + z * z) * Real.sqrt (x * x + y * y + z * z) = x * x + y * y + z * z :=
      Real.mul_self_sqrt (by nlinarith [mul_self_nonneg x, mul_self_nonneg y, mul_self_nonneg z])
    simp only [Option.some.injEq, Prod.mk.injEq] at h
    obtain ⟨rfl, rfl, rfl⟩ := h
    generalize Real.sqrt (x * x + y * y + z * z) = L at *
    refine ⟨?_, _, hp, hs, ?_, ?_, ?_⟩
    · field_simp
      linarith [hs]
    · field_simp
    · field_simp
    · field_simp

lemma normalise_ne_none {x y z : ℝ} (h : 0 < x * x + y * y + z * z) : ∃ v, normalise x y z = some v := by
  refine ⟨_, by simp only [normalise]; rw [if_neg (Real.sqrt_pos.2 h).ne']⟩

/-- The facts about a matrix built from a unit normal from which everything else follows. -/
structure Frame (R : Fin 9 → ℝ) : Prop where
  r00 : R 0 * R 0 + R 1 * R 1 + R 2 * R 2 = 1
  r11 : R 3 * R 3 + R 4 * R 4 + R 5 * R 5 = 1
  r22 : R 6 * R 6 + R 7 * R 7 + R 8 * R 8 = 1
  r01 : R 0 * R 3 + R 1 * R 4 + R 2 * R 5 = 0
  r02 : R 0 * R 6 + R 1 * R 7 + R 2 * R 8 = 0
  r12 : R 3 * R 6 + R 4 * R 7 + R 5 * R 8 = 0
  x0 : R 6 = R 1 * R 5 - R 2 * R 4
  x1 : R 7 = R 2 * R 3 - R 0 * R 5
  x2 : R 8 = R 0 * R 4 - R 1 * R 3

/-- A unit first row, a unit second row orthogonal to it and their cross product form a frame. -/
lemma frame_of {n0 n1 n2 t0 t1 t2 : ℝ} (hn : n0 * n0 + n1 * n1 + n2 * n2 = 1)
    (ht : t0 * t0 + t1 * t1 + t2 * t2 = 1) (h : n0 * t0 + n1 * t1 + n2 * t2 = 0) :
    Frame ![n0, n1, n2, t0, t1, t2, n1 * t2 - n2 * t1, n2 * t0 - n0 * t2, n0 * t1 - n1 * t0] := by
  refine ⟨?_, ?_, ?_, ?_, ?_, ?_, rfl, rfl, rfl⟩
  · exact hn
  · exact ht
  · show (n1 * t2 - n2 * t1) * (n1 * t2 - n2 * t1) + (n2 * t0 - n0 * t2) * (n2 * t0 - n0 * t2) +
      (n0 * t1 - n1 * t0) * (n0 * t1 - n1 * t0) = 1
    linear_combination (t0 * t0 + t1 * t1 + t2 * t2) * hn + ht - (n0 * t0 + n1 * t1 + n2 * t2) * h
  · exact h
  · show n0 * (n1 * t2 - n2 * t1) + n1 * (n2 * t0 - n0 * t2) + n2 * (n0 * t1 - n1 * t0) = 0
    ring
  · show t0 * (n1 * t2 - n2 * t1) + t1 * (n2 * t0 - n0 * t2) + t2 * (n0 * t1 - n1 * t0) = 0
    ring

/-- Everything the code relies on, in one place: for a non-zero normal (in the plane, for two-dimensional
meshes) the matrix exists, is a frame, and its first row is the normal divided by its length. -/
lemma build_frame (n : List ℝ) (dim : Int) (hd : 2 ≤ dim) (h0 : 0 < vec n ⬝ᵥ vec n)
    (h2 : dim = 2 → vec n 2 = 0) :
    ∃ R, build n dim = some R ∧ Frame R ∧
      ∃ len, 0 < len ∧ len * len = vec n ⬝ᵥ vec n ∧
        vec n 0 = len * R 0 ∧ vec n 1 = len * R 1 ∧ vec n 2 = len * R 2 := by
  have hne : n ≠ [] := by
    rintro rfl
    simp [vec, dotProduct, Fin.sum_univ_three] at h0
  have hdot : vec n ⬝ᵥ vec n = n.getD 0 0 * n.getD 0 0 + n.getD 1 0 * n.getD 1 0 + n.getD 2 0 * n.getD 2 0 := by
    simp [vec, dotProduct, Fin.sum_univ_three]
  rw [hdot] at h0
  obtain ⟨⟨a, b, c⟩, hv⟩ := normalise_ne_none h0
  obtain ⟨hu, len, hl, hll, e0, e1, e2⟩ := normalise_some hv
  have hb : build n dim = (if dim = 2 then some ![a, b, 0, -b, a, 0, 0, 0, 1] else
      let (rx, ry, rz) : ℝ × ℝ × ℝ := if |a| < 0.9 then (1, 0, 0) else (0, 1, 0)
      (normalise (b * rz - c * ry) (c * rx - a * rz) (a * ry - b * rx)).bind fun (tx, ty, tz) =>
      some ![a, b, c, tx, ty, tz, b * tz - c * ty, c * tx - a * tz, a * ty - b * tx]) := by
    unfold build
    rw [if_neg (by omega), readNormal_eq hne]
    simp only [Option.bind_eq_bind, Option.bind_some, hv]
  rw [hb, hdot]
  by_cases h : dim = 2
  · rw [if_pos h]
    have hc : c = 0 := by
      have := h2 h
      simp only [vec] at this
      have h3 : n.getD 2 0 = 0 := this
      rw [h3] at e2
      rcases mul_eq_zero.1 e2.symm with h4 | h4
      · exact absurd h4 hl.ne'
      · exact h4
    subst hc
    refine ⟨_, rfl, ?_, len, hl, hll, e0, e1, e2⟩
    refine ⟨?_, ?_, ?_, ?_, ?_, ?_, ?_, ?_, ?_⟩
    · show a * a + b * b + 0 * 0 = 1; linarith
    · show -b * -b + a * a + 0 * 0 = 1; linarith
    · show (0 : ℝ) * 0 + 0 * 0 + 1 * 1 = 1; norm_num
    · show a * -b + b * a + 0 * 0 = 0; ring
    · show a * 0 + b * 0 + 0 * 1 = 0; ring
    · show -b * 0 + a * 0 + 0 * 1 = 0; ring
    · show 0 = b * 0 - 0 * a; ring
    · show 0 = 0 * -b - a * 0; ring
    · show 1 = a * a - b * -b; linarith
  · rw [if_neg h]
    by_cases ha : |a| < 0.9
    · rw [if_pos ha]
      have hpos : 0 < (b * 0 - c * 0) * (b * 0 - c * 0) + (c * 1 - a * 0) * (c * 1 - a * 0) +
          (a * 0 - b * 1) * (a * 0 - b * 1) := by
        have : a * a < 1 := by
          have h3 := abs_lt.1 ha
          nlinarith
        nlinarith
      obtain ⟨⟨tx, ty, tz⟩, ht⟩ := normalise_ne_none hpos
      obtain ⟨htu, tl, htl, -, t0, t1, t2⟩ := normalise_some ht
      simp only [ht, Option.bind_some]
      refine ⟨_, rfl, frame_of hu htu ?_, len, hl, hll, e0, e1, e2⟩
      have : tl * (a * tx + b * ty + c * tz) = 0 := by
        linear_combination -a * t0 - b * t1 - c * t2
      exact (mul_eq_zero.1 this).resolve_left htl.ne'
    · rw [if_neg ha]
      have hpos : 0 < (b * 0 - c * 1) * (b * 0 - c * 1) + (c * 0 - a * 0) * (c * 0 - a * 0) +
          (a * 1 - b * 0) * (a * 1 - b * 0) := by
        have h3 : (0.9 : ℝ) ≤ |a| := not_lt.1 ha
        have h4 : |a| * |a| = a * a := abs_mul_abs_self a
        have : 0 < a * a := by rw [← h4]; nlinarith
        nlinarith [mul_self_nonneg c]
      obtain ⟨⟨tx, ty, tz⟩, ht⟩ := normalise_ne_none hpos
      obtain ⟨htu, tl, htl, -, t0, t1, t2⟩ := normalise_some ht
      simp only [ht, Option.bind_some]
      refine ⟨_, rfl, frame_of hu htu ?_, len, hl, hll, e0, e1, e2⟩
      have : tl * (a * tx + b * ty + c * tz) = 0 := by
        linear_combination -a * t0 - b * t1 - c * t2
      exact (mul_eq_zero.1 this).resolve_left htl.ne'

/-- The three rows of a row-major 3x3 matrix, as a matrix. -/
def toMatrix (R : Fin 9 → ℝ) : Matrix (Fin 3) (Fin 3) ℝ := !![R 0, R 1, R 2; R 3, R 4, R 5; R 6, R 7, R 8]

lemma Frame.orthogonal {R : Fin 9 → ℝ} (f : Frame R) : toMatrix R * (toMatrix R)ᵀ = 1 := by
  ext i j
  fin_cases i <;> fin_cases j <;> simp [toMatrix, Matrix.mul_apply, Fin.sum_univ_three]
  · exact f.r00
  · exact f.r01
  · exact f.r02
  · linear_combination f.r01
  · exact f.r11
  · exact f.r12
  · linear_combination f.r02
  · linear_combination f.r12
  · exact f.r22

lemma Frame.orthogonal' {R : Fin 9 → ℝ} (f : Frame R) : (toMatrix R)ᵀ * toMatrix R = 1 :=
  mul_eq_one_comm.1 f.orthogonal

lemma toLocal_eq (R : Fin 9 → ℝ) (g : Fin 3 → ℝ) : toLocal R g = toMatrix R *ᵥ g := by
  funext i
  fin_cases i <;> simp [toLocal, toMatrix, mulVec, dotProduct, Fin.sum_univ_three]

lemma toGlobal_eq (R : Fin 9 → ℝ) (l : Fin 3 → ℝ) : toGlobal R l = (toMatrix R)ᵀ *ᵥ l := by
  funext i
  fin_cases i <;> simp [toGlobal, toMatrix, mulVec, dotProduct, Fin.sum_univ_three]

/-- **C24**: for every non-zero normal of a face of a two- or three-dimensional mesh the code produces a matrix
that is a rotation (orthogonal, determinant one). -/
theorem C24_is_rotation (n : List ℝ) (dim : Int) (hd : 2 ≤ dim) (h0 : 0 < vec n ⬝ᵥ vec n)
    (h2 : dim = 2 → vec n 2 = 0) :
    ∃ R, build n dim = some R ∧ toMatrix R * (toMatrix R)ᵀ = 1 ∧ (toMatrix R).det = 1 := by
  obtain ⟨R, hR, f, -⟩ := build_frame n dim hd h0 h2
  refine ⟨R, hR, f.orthogonal, ?_⟩
  rw [toMatrix, Matrix.det_fin_three]
  simp only [Matrix.of_apply, Matrix.cons_val', Matrix.cons_val_zero, Matrix.cons_val_one, Matrix.cons_val]
  have e : R 0 * R 4 * R 8 - R 0 * R 5 * R 7 - R 1 * R 3 * R 8 + R 1 * R 5 * R 6 + R 2 * R 3 * R 7 -
      R 2 * R 4 * R 6 = R 6 * R 6 + R 7 * R 7 + R 8 * R 8 := by
    rw [f.x0, f.x1, f.x2]; ring
  rw [e, f.r22]

/-- **C24**: the normal is mapped on the first local axis, with its length; the other two local components of
a vector are its tangential part. -/
theorem C24_normal_to_axis (n : List ℝ) (dim : Int) (hd : 2 ≤ dim) (h0 : 0 < vec n ⬝ᵥ vec n)
    (h2 : dim = 2 → vec n 2 = 0) (R : Fin 9 → ℝ) (hR : build n dim = some R) :
    ∃ len, 0 < len ∧ len * len = vec n ⬝ᵥ vec n ∧ toLocal R (vec n) = ![len, 0, 0] ∧
      ∀ g, len * toLocal R g 0 = vec n ⬝ᵥ g := by
  obtain ⟨R', hR', f, len, hl, hll, e0, e1, e2⟩ := build_frame n dim hd h0 h2
  rw [hR] at hR'
  obtain rfl := Option.some.inj hR'
  refine ⟨len, hl, hll, ?_, ?_⟩
  · funext i
    fin_cases i
    · simp only [toLocal]
      rw [e0, e1, e2]
      show R 0 * (len * R 0) + R 1 * (len * R 1) + R 2 * (len * R 2) = len
      linear_combination len * f.r00
    · simp only [toLocal]
      rw [e0, e1, e2]
      show R 3 * (len * R 0) + R 4 * (len * R 1) + R 5 * (len * R 2) = 0
      linear_combination len * f.r01
    · simp only [toLocal]
      rw [e0, e1, e2]
      show R 6 * (len * R 0) + R 7 * (len * R 1) + R 8 * (len * R 2) = 0
      linear_combination len * f.r02
  · intro g
    simp only [toLocal, dotProduct, Fin.sum_univ_three, e0, e1, e2]
    show len * (R 0 * g 0 + R 1 * g 1 + R 2 * g 2) = _
    ring

/-- **C24**, round trip in both directions. -/
theorem C24_round_trip (n : List ℝ) (dim : Int) (h0 : 2 ≤ dim → 0 < vec n ⬝ᵥ vec n)
    (h2 : dim = 2 → vec n 2 = 0) (R : Fin 9 → ℝ) (hR : build n dim = some R) (v : Fin 3 → ℝ) :
    toGlobal R (toLocal R v) = v ∧ toLocal R (toGlobal R v) = v := by
  by_cases hd : dim ≤ 1
  · simp only [build, if_pos hd, Option.some.injEq] at hR
    subst hR
    constructor <;> funext i <;> fin_cases i <;> simp [toGlobal, toLocal]
  · obtain ⟨R', hR', f, -⟩ := build_frame n dim (by omega) (h0 (by omega)) h2
    rw [hR] at hR'
    obtain rfl := Option.some.inj hR'
    rw [toLocal_eq, toGlobal_eq, toLocal_eq, toGlobal_eq, mulVec_mulVec, mulVec_mulVec, f.orthogonal,
      f.orthogonal']
    simp

/-- **C24**, physics: the rotation preserves scalar products (energies) and cross products (curls, Poynting
vectors). -/
theorem C24_preserves_products (n : List ℝ) (dim : Int) (hd : 2 ≤ dim) (h0 : 0 < vec n ⬝ᵥ vec n)
    (h2 : dim = 2 → vec n 2 = 0) (R : Fin 9 → ℝ) (hR : build n dim = some R) (u v : Fin 3 → ℝ) :
    toLocal R u ⬝ᵥ toLocal R v = u ⬝ᵥ v ∧
    crossProduct (toLocal R u) (toLocal R v) = toLocal R (crossProduct u v) := by
  obtain ⟨R', hR', f, -⟩ := build_frame n dim hd h0 h2
  rw [hR] at hR'
  obtain rfl := Option.some.inj hR'
  constructor
  · rw [toLocal_eq, toLocal_eq, dotProduct_mulVec, vecMul_mulVec, f.orthogonal', vecMul_one]
  · -- rows are a right-handed frame: n = t1 × t2, t1 = t2 × n, t2 = n × t1
    have k : ∀ i j : Fin 3, ((toMatrix R)ᵀ * toMatrix R) i j = (1 : Matrix (Fin 3) (Fin 3) ℝ) i j := fun i j => by
      rw [f.orthogonal']
    have y0 : R 3 = R 7 * R 2 - R 8 * R 1 := by
      rw [f.x1, f.x2]; linear_combination -(R 3) * f.r00 + R 0 * f.r01
    have y1 : R 4 = R 8 * R 0 - R 6 * R 2 := by
      rw [f.x0, f.x2]; linear_combination -(R 4) * f.r00 + R 1 * f.r01
    have y2 : R 5 = R 6 * R 1 - R 7 * R 0 := by
      rw [f.x0, f.x1]; linear_combination -(R 5) * f.r00 + R 2 * f.r01
    have z0 : R 0 = R 4 * R 8 - R 5 * R 7 := by
      rw [f.x1, f.x2]; linear_combination -(R 0) * f.r11 + R 3 * f.r01
    have z1 : R 1 = R 5 * R 6 - R 3 * R 8 := by
      rw [f.x0, f.x2]; linear_combination -(R 1) * f.r11 + R 4 * f.r01
    have z2 : R 2 = R 3 * R 7 - R 4 * R 6 := by
      rw [f.x0, f.x1]; linear_combination -(R 2) * f.r11 + R 5 * f.r01
    funext i
    fin_cases i
    · simp [toLocal, cross_apply]
      show (R 3 * u 0 + R 4 * u 1 + R 5 * u 2) * (R 6 * v 0 + R 7 * v 1 + R 8 * v 2) -
        (R 6 * u 0 + R 7 * u 1 + R 8 * u 2) * (R 3 * v 0 + R 4 * v 1 + R 5 * v 2) = _
      linear_combination -(u 1 * v 2 - u 2 * v 1) * z0 - (u 2 * v 0 - u 0 * v 2) * z1 -
        (u 0 * v 1 - u 1 * v 0) * z2
    · simp [toLocal, cross_apply]
      show (R 6 * u 0 + R 7 * u 1 + R 8 * u 2) * (R 0 * v 0 + R 1 * v 1 + R 2 * v 2) -
        (R 0 * u 0 + R 1 * u 1 + R 2 * u 2) * (R 6 * v 0 + R 7 * v 1 + R 8 * v 2) = _
      linear_combination -(u 1 * v 2 - u 2 * v 1) * y0 - (u 2 * v 0 - u 0 * v 2) * y1 -
        (u 0 * v 1 - u 1 * v 0) * y2
    · simp [toLocal, cross_apply]
      show (R 0 * u 0 + R 1 * u 1 + R 2 * u 2) * (R 3 * v 0 + R 4 * v 1 + R 5 * v 2) -
        (R 3 * u 0 + R 4 * u 1 + R 5 * u 2) * (R 0 * v 0 + R 1 * v 1 + R 2 * v 2) = _
      linear_combination -(u 1 * v 2 - u 2 * v 1) * f.x0 - (u 2 * v 0 - u 0 * v 2) * f.x1 -
        (u 0 * v 1 - u 1 * v 0) * f.x2

/-- A zero normal gives no frame (the code divides zero by zero). -/
theorem C24_zero_normal (n : List ℝ) (dim : Int) (hd : 2 ≤ dim) (h0 : vec n = 0) : build n dim = none := by
  unfold build
  rw [if_neg (by omega)]
  by_cases hne : n = []
  · subst hne; rfl
  · have e : ∀ i : Fin 3, vec n i = 0 := fun i => by rw [h0]; rfl
    have e0 : n.getD 0 0 = 0 := e 0
    have e1 : n.getD 1 0 = 0 := e 1
    have e2 : n.getD 2 0 = 0 := e 2
    rw [readNormal_eq hne, e0, e1, e2]
    simp [normalise]

/-- Hypotheses are met by an oblique normal in three dimensions and by an in-plane one in two. -/
example : 0 < vec [1, 2, -2] ⬝ᵥ vec [1, 2, -2] ∧ ((3 : Int) = 2 → vec [1, 2, -2] 2 = 0) ∧
    0 < vec [3, -4] ⬝ᵥ vec [3, -4] ∧ vec [3, -4] 2 = 0 := by
  have e : ∀ n : List ℝ, vec n ⬝ᵥ vec n =
      n.getD 0 0 * n.getD 0 0 + n.getD 1 0 * n.getD 1 0 + n.getD 2 0 * n.getD 2 0 := fun n => by
    simp [vec, dotProduct, Fin.sum_univ_three]
  refine ⟨?_, by omega, ?_, rfl⟩ <;> rw [e] <;> norm_num

/-- A vertical normal in three dimensions, worked out. -/
example : build [0, 0, 2] 3 = some ![0, 0, 1, 0, 1, 0, -1, 0, 0] := by
  have h1 : normalise 0 0 2 = some (0, 0, 1) := by
    have : Real.sqrt (2 * 2) = 2 := Real.sqrt_mul_self (by norm_num)
    norm_num [normalise, this]
    rw [show (4 : ℝ) = 2 * 2 by norm_num, this]; norm_num
  have h2 : normalise 0 1 0 = some (0, 1, 0) := by norm_num [normalise]
  norm_num [build, readNormal, h1, h2]

end Dgtd.FaceRotation
