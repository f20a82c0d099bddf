/-
C79: the dipole source satisfies Maxwell's equations away from the origin.
-/
import Verif.Props.Wave
import Mathlib.Analysis.Calculus.Deriv.Pow
import Mathlib.Analysis.Calculus.Deriv.Inv

set_option linter.unusedSectionVars false

namespace Dgtd.Wave
open Spec
open Dgtd.Config (FieldType)

noncomputable section

/-! ### The current and its derivatives -/

/-- The third derivative, which the code does not need. -/
def dddiret (w u : ℝ) : ℝ :=
  ddiret w u * (-2) * (u / w) / w + diret w u * (-2) / w / w + diret w u * (-2) / w / w

theorem hasDeriv_iret (w u : ℝ) : HasDerivAt (iret w) (diret w u) u := by
  have h1 : HasDerivAt (fun u : ℝ => u / w) (1 / w) u := (hasDerivAt_id u).div_const w
  have h2 := ((h1.mul h1).neg).exp.const_mul (w * Real.exp 1 / 2 * 1)
  have e : w * Real.exp 1 / 2 * 1 * (Real.exp (-(u / w * (u / w))) * -(1 / w * (u / w) + u / w * (1 / w))) =
      diret w u := by
    unfold diret iret; ring
  rw [← e]; exact h2

theorem hasDeriv_diret (w u : ℝ) : HasDerivAt (diret w) (ddiret w u) u := by
  have h1 : HasDerivAt (fun u : ℝ => u / w) (1 / w) u := (hasDerivAt_id u).div_const w
  have h2 := ((((hasDeriv_iret w u).neg).mul_const 2).mul h1).div_const w
  have e : (-diret w u * 2 * (u / w) + -iret w u * 2 * (1 / w)) / w = ddiret w u := by
    unfold ddiret; ring
  rw [← e]; exact h2

theorem hasDeriv_ddiret (w u : ℝ) : HasDerivAt (ddiret w) (dddiret w u) u := by
  have h1 : HasDerivAt (fun u : ℝ => u / w) (1 / w) u := (hasDerivAt_id u).div_const w
  have h2 := ((((hasDeriv_diret w u).mul_const (-2)).mul h1).div_const w).add
    ((((hasDeriv_iret w u).mul_const (-2)).div_const w).div_const w)
  have e : (ddiret w u * (-2) * (u / w) + diret w u * (-2) * (1 / w)) / w + diret w u * (-2) / w / w = dddiret w u := by
    unfold dddiret; ring
  rw [← e]; exact h2

/-! ### Closed form -/

def rad (x y z : ℝ) : ℝ := Real.sqrt (x ^ 2 + y ^ 2 + z ^ 2)

theorem rad_pos (x y z : ℝ) (h : ¬ (x = 0 ∧ y = 0 ∧ z = 0)) : 0 < rad x y z := by
  unfold rad
  apply Real.sqrt_pos.2
  by_contra hc
  have h1 := sq_nonneg x
  have h2 := sq_nonneg y
  have h3 := sq_nonneg z
  exact h ⟨pow_eq_zero_iff (two_ne_zero) |>.1 (by linarith), pow_eq_zero_iff (two_ne_zero) |>.1 (by linarith),
    pow_eq_zero_iff (two_ne_zero) |>.1 (by linarith)⟩

theorem rad_sq (x y z : ℝ) : rad x y z ^ 2 = x ^ 2 + y ^ 2 + z ^ 2 := by
  unfold rad
  exact Real.sq_sqrt (by positivity)

theorem radiusOf_eq (x y z : ℝ) : Spherical.radiusOf [x, y, z] = rad x y z := by
  simp [Spherical.radiusOf, rad]

/-- Radial functions of the closed form; `τ` is time minus mean. -/
def gF (w τ r : ℝ) : ℝ := 3 * iret w (τ - r) / r ^ 5 + 3 * diret w (τ - r) / r ^ 4 + ddiret w (τ - r) / r ^ 3
def gB (w τ r : ℝ) : ℝ := iret w (τ - r) / r ^ 3 + diret w (τ - r) / r ^ 2 + ddiret w (τ - r) / r
def gD (w τ r : ℝ) : ℝ := ddiret w (τ - r) / r ^ 2 + diret w (τ - r) / r ^ 3

/-- The field of the dipole in Cartesian coordinates, written without angles. -/
def closed (k w m : ℝ) (ft : FieldType) : VField := fun x y z t =>
  match ft with
  | .E => ![k * (x * z * gF w (t - m) (rad x y z)), k * (y * z * gF w (t - m) (rad x y z)),
      k * (z * z * gF w (t - m) (rad x y z) - gB w (t - m) (rad x y z))]
  | .H => ![-(k * (y * gD w (t - m) (rad x y z))), k * (x * gD w (t - m) (rad x y z)), 0]

theorem angles (x y z : ℝ) (h : ¬ (x = 0 ∧ y = 0 ∧ z = 0)) :
    ∃ s, Spherical.ofCartesian [x, y, z] = some s ∧ s.radius = rad x y z ∧
      rad x y z * (Real.sin s.theta * Real.cos s.phi) = x ∧ rad x y z * (Real.sin s.theta * Real.sin s.phi) = y ∧
      rad x y z * Real.cos s.theta = z := by
  have hr := rad_pos x y z h
  obtain ⟨s, hs, hc⟩ := Spherical.C37_round_trip x y z h
  refine ⟨s, hs, ?_⟩
  have hrad : s.radius = rad x y z := by
    rw [← radiusOf_eq]
    simp only [Spherical.ofCartesian] at hs
    split at hs
    · cases hs
    · cases hs; rfl
  simp only [Spherical.toCartesian, List.cons.injEq, and_true, hrad] at hc
  obtain ⟨hx, hy, hz⟩ := hc
  exact ⟨hrad, by rw [← mul_assoc]; exact hx, by rw [← mul_assoc]; exact hy, hz⟩

/-- The angles of the code give the closed form. -/
theorem dipole_closed (len s m x y z t : ℝ) (h : ¬ (x = 0 ∧ y = 0 ∧ z = 0)) (ft : FieldType) :
    dipole len s m [x, y, z] t ft = some (closed (len * invFourPi) (s * Real.sqrt 2) m ft x y z t) := by
  obtain ⟨v, hv, hr, hx, hy, hz⟩ := angles x y z h
  have hrp := rad_pos x y z h
  unfold dipole
  rw [hv]
  simp only [Option.bind_some, hr, hrp.ne', if_false, Option.some.injEq]
  have hsc := Real.sin_sq_add_cos_sq v.theta
  unfold closed
  generalize hR : rad x y z = r at *
  have hu : t - m - r / 1 = t - m - r := by ring
  rw [hu]
  unfold gF gB gD
  generalize iret (s * Real.sqrt 2) (t - m - r) = P
  generalize diret (s * Real.sqrt 2) (t - m - r) = P1
  generalize ddiret (s * Real.sqrt 2) (t - m - r) = P2
  generalize invFourPi = q
  have hr0 := hrp.ne'
  cases ft with
  | E =>
    simp only [Spherical.fieldToCartesian]
    funext d
    fin_cases d <;>
      simp only [Matrix.cons_val_zero, Matrix.cons_val_one, Matrix.cons_val, Fin.zero_eta, Fin.mk_one, Fin.reduceFinMk]
    · rw [← hx, ← hz]; field_simp; ring
    · rw [← hy, ← hz]; field_simp; ring
    · rw [← hz]
      have : Real.sin v.theta ^ 2 = 1 - Real.cos v.theta ^ 2 := by linarith
      field_simp
      linear_combination (-(len * q * (P + r * P1 + r ^ 2 * P2))) * this
  | H =>
    simp only [Spherical.fieldToCartesian]
    funext d
    fin_cases d <;>
      simp only [Matrix.cons_val_zero, Matrix.cons_val_one, Matrix.cons_val, Fin.zero_eta, Fin.mk_one, Fin.reduceFinMk]
    · rw [← hy]; field_simp; ring
    · rw [← hx]; field_simp; ring
    · ring

/-! ### Derivatives -/

def gF' (w τ r : ℝ) : ℝ := -15 * iret w (τ - r) / r ^ 6 - 15 * diret w (τ - r) / r ^ 5 - 6 * ddiret w (τ - r) / r ^ 4 -
  dddiret w (τ - r) / r ^ 3
def gB' (w τ r : ℝ) : ℝ := -3 * iret w (τ - r) / r ^ 4 - 3 * diret w (τ - r) / r ^ 3 - 2 * ddiret w (τ - r) / r ^ 2 -
  dddiret w (τ - r) / r
def gD' (w τ r : ℝ) : ℝ := -dddiret w (τ - r) / r ^ 2 - 3 * ddiret w (τ - r) / r ^ 3 - 3 * diret w (τ - r) / r ^ 4
def gFt (w τ r : ℝ) : ℝ := 3 * diret w (τ - r) / r ^ 5 + 3 * ddiret w (τ - r) / r ^ 4 + dddiret w (τ - r) / r ^ 3
def gBt (w τ r : ℝ) : ℝ := diret w (τ - r) / r ^ 3 + ddiret w (τ - r) / r ^ 2 + dddiret w (τ - r) / r
def gDt (w τ r : ℝ) : ℝ := dddiret w (τ - r) / r ^ 2 + ddiret w (τ - r) / r ^ 3

theorem hasDeriv_ret {f : ℝ → ℝ} {f' τ r : ℝ} (hf : HasDerivAt f f' (τ - r)) (n : ℕ) (hr : r ≠ 0) :
    HasDerivAt (fun r => f (τ - r) / r ^ n) (-f' / r ^ n - n * f (τ - r) / r ^ (n + 1)) r := by
  have h1 : HasDerivAt (fun r : ℝ => τ - r) (-1) r := by simpa using (hasDerivAt_id r).const_sub τ
  have h2 := HasDerivAt.comp r hf h1
  have h3 := HasDerivAt.div h2 (hasDerivAt_pow n r) (pow_ne_zero n hr)
  have e : (f' * -1 * r ^ n - f (τ - r) * (n * r ^ (n - 1))) / (r ^ n) ^ 2 = -f' / r ^ n - n * f (τ - r) / r ^ (n + 1) := by
    cases n with
    | zero => simp
    | succ k =>
      simp only [Nat.add_sub_cancel]
      field_simp
      ring
  rw [← e]; exact h3

theorem hasDeriv_gF (w τ r : ℝ) (hr : r ≠ 0) : HasDerivAt (gF w τ) (gF' w τ r) r := by
  have h := (((hasDeriv_ret (hasDeriv_iret w (τ - r)) 5 hr).const_mul 3).add
    ((hasDeriv_ret (hasDeriv_diret w (τ - r)) 4 hr).const_mul 3)).add (hasDeriv_ret (hasDeriv_ddiret w (τ - r)) 3 hr)
  have e : 3 * (-diret w (τ - r) / r ^ 5 - (5 : ℕ) * iret w (τ - r) / r ^ (5 + 1)) +
      3 * (-ddiret w (τ - r) / r ^ 4 - (4 : ℕ) * diret w (τ - r) / r ^ (4 + 1)) +
      (-dddiret w (τ - r) / r ^ 3 - (3 : ℕ) * ddiret w (τ - r) / r ^ (3 + 1)) = gF' w τ r := by
    unfold gF'; push_cast; ring
  rw [← e]
  refine h.congr_of_eventuallyEq (Filter.Eventually.of_forall fun a => ?_)
  simp only [gF, Pi.add_apply]; ring

theorem hasDeriv_gB (w τ r : ℝ) (hr : r ≠ 0) : HasDerivAt (gB w τ) (gB' w τ r) r := by
  have h := ((hasDeriv_ret (hasDeriv_iret w (τ - r)) 3 hr).add
    (hasDeriv_ret (hasDeriv_diret w (τ - r)) 2 hr)).add (hasDeriv_ret (hasDeriv_ddiret w (τ - r)) 1 hr)
  have e : (-diret w (τ - r) / r ^ 3 - (3 : ℕ) * iret w (τ - r) / r ^ (3 + 1)) +
      (-ddiret w (τ - r) / r ^ 2 - (2 : ℕ) * diret w (τ - r) / r ^ (2 + 1)) +
      (-dddiret w (τ - r) / r ^ 1 - (1 : ℕ) * ddiret w (τ - r) / r ^ (1 + 1)) = gB' w τ r := by
    unfold gB'; push_cast; ring
  rw [← e]
  refine h.congr_of_eventuallyEq (Filter.Eventually.of_forall fun a => ?_)
  simp only [gB, Pi.add_apply, pow_one]

theorem hasDeriv_gD (w τ r : ℝ) (hr : r ≠ 0) : HasDerivAt (gD w τ) (gD' w τ r) r := by
  have h := (hasDeriv_ret (hasDeriv_ddiret w (τ - r)) 2 hr).add (hasDeriv_ret (hasDeriv_diret w (τ - r)) 3 hr)
  have e : (-dddiret w (τ - r) / r ^ 2 - (2 : ℕ) * ddiret w (τ - r) / r ^ (2 + 1)) +
      (-ddiret w (τ - r) / r ^ 3 - (3 : ℕ) * diret w (τ - r) / r ^ (3 + 1)) = gD' w τ r := by
    unfold gD'; push_cast; ring
  rw [← e]
  exact h

theorem hasDeriv_time {f : ℝ → ℝ} {f' t m r : ℝ} (hf : HasDerivAt f f' (t - m - r)) (c : ℝ) :
    HasDerivAt (fun t => f (t - m - r) / c) (f' / c) t := by
  have h1 : HasDerivAt (fun t : ℝ => t - m - r) 1 t := ((hasDerivAt_id t).sub_const m).sub_const r
  have h2 := HasDerivAt.comp t hf h1
  rw [mul_one] at h2
  exact h2.div_const c

theorem hasDeriv_gFt (w t m r : ℝ) : HasDerivAt (fun t => gF w (t - m) r) (gFt w (t - m) r) t := by
  have h := (((hasDeriv_time (t := t) (m := m) (r := r) (hasDeriv_iret w _) (r ^ 5)).const_mul 3).add
    ((hasDeriv_time (t := t) (m := m) (r := r) (hasDeriv_diret w _) (r ^ 4)).const_mul 3)).add
    (hasDeriv_time (t := t) (m := m) (r := r) (hasDeriv_ddiret w _) (r ^ 3))
  have e : 3 * (diret w (t - m - r) / r ^ 5) + 3 * (ddiret w (t - m - r) / r ^ 4) + dddiret w (t - m - r) / r ^ 3 =
      gFt w (t - m) r := by unfold gFt; ring
  rw [← e]
  refine h.congr_of_eventuallyEq (Filter.Eventually.of_forall fun a => ?_)
  simp only [gF, Pi.add_apply]; ring

theorem hasDeriv_gBt (w t m r : ℝ) : HasDerivAt (fun t => gB w (t - m) r) (gBt w (t - m) r) t :=
  ((hasDeriv_time (t := t) (m := m) (r := r) (hasDeriv_iret w _) (r ^ 3)).add
    (hasDeriv_time (hasDeriv_diret w _) (r ^ 2))).add (hasDeriv_time (hasDeriv_ddiret w _) r)

theorem hasDeriv_gDt (w t m r : ℝ) : HasDerivAt (fun t => gD w (t - m) r) (gDt w (t - m) r) t :=
  (hasDeriv_time (t := t) (m := m) (r := r) (hasDeriv_ddiret w _) (r ^ 2)).add
    (hasDeriv_time (hasDeriv_diret w _) (r ^ 3))

theorem hasDeriv_sqrt (c x : ℝ) (h : x ^ 2 + c ≠ 0) :
    HasDerivAt (fun a => Real.sqrt (a ^ 2 + c)) (x / Real.sqrt (x ^ 2 + c)) x := by
  have h1 : HasDerivAt (fun a : ℝ => a ^ 2 + c) (2 * x) x := by
    simpa using (hasDerivAt_pow 2 x).add_const c
  have h2 := h1.sqrt h
  have e : 2 * x / (2 * Real.sqrt (x ^ 2 + c)) = x / Real.sqrt (x ^ 2 + c) := by
    rw [mul_div_mul_left _ _ (two_ne_zero)]
  rw [← e]; exact h2

/-- Partial derivatives of a radial function. -/
theorem partials_radial (G : ℝ → ℝ → ℝ) (x y z t g' gt : ℝ) (h : ¬ (x = 0 ∧ y = 0 ∧ z = 0))
    (hr : HasDerivAt (G t) g' (rad x y z)) (ht : HasDerivAt (fun t => G t (rad x y z)) gt t) :
    Partials (fun x y z t => G t (rad x y z)) x y z t (g' * (x / rad x y z)) (g' * (y / rad x y z)) (g' * (z / rad x y z)) gt := by
  have hp : x ^ 2 + y ^ 2 + z ^ 2 ≠ 0 := by
    have := rad_pos x y z h
    have h2 := rad_sq x y z
    have : 0 < rad x y z ^ 2 := by positivity
    linarith
  refine ⟨?_, ?_, ?_, ht⟩
  · have e : ∀ a, rad a y z = Real.sqrt (a ^ 2 + (y ^ 2 + z ^ 2)) := fun a => by unfold rad; rw [add_assoc]
    have h1 := hasDeriv_sqrt (y ^ 2 + z ^ 2) x (by rw [← add_assoc]; exact hp)
    simp only [← e] at h1
    exact HasDerivAt.comp x hr h1
  · have e : ∀ a, rad x a z = Real.sqrt (a ^ 2 + (x ^ 2 + z ^ 2)) := fun a => by
      unfold rad; congr 1; ring
    have h1 := hasDeriv_sqrt (x ^ 2 + z ^ 2) y (by intro hc; exact hp (by linarith))
    simp only [← e] at h1
    exact HasDerivAt.comp y hr h1
  · have e : ∀ a, rad x y a = Real.sqrt (a ^ 2 + (x ^ 2 + y ^ 2)) := fun a => by
      unfold rad; congr 1; ring
    have h1 := hasDeriv_sqrt (x ^ 2 + y ^ 2) z (by intro hc; exact hp (by linarith))
    simp only [← e] at h1
    exact HasDerivAt.comp z hr h1

theorem Spec.Partials.mul {f g : ℝ → ℝ → ℝ → ℝ → ℝ} {x y z t a b c d a' b' c' d' : ℝ} (hf : Partials f x y z t a b c d)
    (hg : Partials g x y z t a' b' c' d') :
    Partials (fun x y z t => f x y z t * g x y z t) x y z t (a * g x y z t + f x y z t * a')
      (b * g x y z t + f x y z t * b') (c * g x y z t + f x y z t * c') (d * g x y z t + f x y z t * d') :=
  ⟨hf.hx.mul hg.hx, hf.hy.mul hg.hy, hf.hz.mul hg.hz, hf.ht.mul hg.ht⟩

theorem Spec.Partials.sub {f g : ℝ → ℝ → ℝ → ℝ → ℝ} {x y z t a b c d a' b' c' d' : ℝ} (hf : Partials f x y z t a b c d)
    (hg : Partials g x y z t a' b' c' d') :
    Partials (fun x y z t => f x y z t - g x y z t) x y z t (a - a') (b - b') (c - c') (d - d') :=
  ⟨hf.hx.sub hg.hx, hf.hy.sub hg.hy, hf.hz.sub hg.hz, hf.ht.sub hg.ht⟩

theorem Spec.Partials.neg {f : ℝ → ℝ → ℝ → ℝ → ℝ} {x y z t a b c d : ℝ} (hf : Partials f x y z t a b c d) :
    Partials (fun x y z t => -f x y z t) x y z t (-a) (-b) (-c) (-d) :=
  ⟨hf.hx.neg, hf.hy.neg, hf.hz.neg, hf.ht.neg⟩

theorem Spec.Partials.const_mul {f : ℝ → ℝ → ℝ → ℝ → ℝ} {x y z t a b c d : ℝ} (k : ℝ) (hf : Partials f x y z t a b c d) :
    Partials (fun x y z t => k * f x y z t) x y z t (k * a) (k * b) (k * c) (k * d) :=
  ⟨hf.hx.const_mul k, hf.hy.const_mul k, hf.hz.const_mul k, hf.ht.const_mul k⟩

theorem partials_x (x y z t : ℝ) : Partials (fun x _ _ _ => x) x y z t 1 0 0 0 :=
  ⟨hasDerivAt_id x, hasDerivAt_const y x, hasDerivAt_const z x, hasDerivAt_const t x⟩
theorem partials_y (x y z t : ℝ) : Partials (fun _ y _ _ => y) x y z t 0 1 0 0 :=
  ⟨hasDerivAt_const x y, hasDerivAt_id y, hasDerivAt_const z y, hasDerivAt_const t y⟩
theorem partials_z (x y z t : ℝ) : Partials (fun _ _ z _ => z) x y z t 0 0 1 0 :=
  ⟨hasDerivAt_const x z, hasDerivAt_const y z, hasDerivAt_id z, hasDerivAt_const t z⟩
theorem partials_zero (x y z t : ℝ) : Partials (fun _ _ _ _ => 0) x y z t 0 0 0 0 :=
  ⟨hasDerivAt_const x 0, hasDerivAt_const y 0, hasDerivAt_const z 0, hasDerivAt_const t 0⟩

theorem maxwell_of_partials {E H : VField} {x y z t a0 a1 a2 a3 b0 b1 b2 b3 c0 c1 c2 c3 d0 d1 d2 d3 e0 e1 e2 e3 f0 f1 f2 f3 : ℝ}
    (hE0 : Partials (fun x y z t => E x y z t 0) x y z t a0 a1 a2 a3)
    (hE1 : Partials (fun x y z t => E x y z t 1) x y z t b0 b1 b2 b3)
    (hE2 : Partials (fun x y z t => E x y z t 2) x y z t c0 c1 c2 c3)
    (hH0 : Partials (fun x y z t => H x y z t 0) x y z t d0 d1 d2 d3)
    (hH1 : Partials (fun x y z t => H x y z t 1) x y z t e0 e1 e2 e3)
    (hH2 : Partials (fun x y z t => H x y z t 2) x y z t f0 f1 f2 f3)
    (h : a3 = f1 - e2 ∧ b3 = d2 - f0 ∧ c3 = e0 - d1 ∧ d3 = -(c1 - b2) ∧ e3 = -(a2 - c0) ∧ f3 = -(b0 - a1) ∧
      a0 + b1 + c2 = 0 ∧ d0 + e1 + f2 = 0) : MaxwellAt E H x y z t := by
  refine ⟨![![a0, a1, a2, a3], ![b0, b1, b2, b3], ![c0, c1, c2, c3]],
    ![![d0, d1, d2, d3], ![e0, e1, e2, e3], ![f0, f1, f2, f3]], ?_, ?_, h⟩
  · intro c
    fin_cases c
    · exact hE0
    · exact hE1
    · exact hE2
  · intro c
    fin_cases c
    · exact hH0
    · exact hH1
    · exact hH2

theorem closed_maxwell (k w m x y z t : ℝ) (h : ¬ (x = 0 ∧ y = 0 ∧ z = 0)) :
    MaxwellAt (closed k w m .E) (closed k w m .H) x y z t := by
  have hr := rad_pos x y z h
  have hF := partials_radial (fun t r => gF w (t - m) r) x y z t _ _ h (hasDeriv_gF w (t - m) _ hr.ne') (hasDeriv_gFt w t m _)
  have hB := partials_radial (fun t r => gB w (t - m) r) x y z t _ _ h (hasDeriv_gB w (t - m) _ hr.ne') (hasDeriv_gBt w t m _)
  have hD := partials_radial (fun t r => gD w (t - m) r) x y z t _ _ h (hasDeriv_gD w (t - m) _ hr.ne') (hasDeriv_gDt w t m _)
  have hX := partials_x x y z t
  have hY := partials_y x y z t
  have hZ := partials_z x y z t
  have e0 := ((hX.mul hZ).mul hF).const_mul k
  have e1 := ((hY.mul hZ).mul hF).const_mul k
  have e2 := (((hZ.mul hZ).mul hF).sub hB).const_mul k
  have h0 := ((hY.mul hD).const_mul k).neg
  have h1 := (hX.mul hD).const_mul k
  have h2 := partials_zero x y z t
  refine maxwell_of_partials e0 e1 e2 h0 h1 h2 ?_
  have hs := rad_sq x y z
  simp only [gF, gD, gF', gB', gD', gFt, gBt, gDt]
  clear e0 e1 e2 h0 h1 h2 hF hB hD
  generalize rad x y z = r at hr hs ⊢
  generalize iret w (t - m - r) = P
  generalize diret w (t - m - r) = P1
  generalize ddiret w (t - m - r) = P2
  generalize dddiret w (t - m - r) = P3
  have hr0 := hr.ne'
  refine ⟨?_, ?_, ?_, ?_, ?_, ?_, ?_, ?_⟩
  · field_simp; ring
  · field_simp; ring
  · linear_combination (norm := skip) (k * (-P3 / r ^ 2 - 3 * P2 / r ^ 3 - 3 * P1 / r ^ 4) / r) * hs
    field_simp; ring
  · field_simp; ring
  · field_simp; ring
  · field_simp; ring
  · linear_combination (norm := skip) -(k * z * (-15 * P / r ^ 6 - 15 * P1 / r ^ 5 - 6 * P2 / r ^ 4 - P3 / r ^ 3) / r) * hs
    field_simp; ring
  · field_simp; ring

/-- **C79**: at every point other than the origin and at all times the dipole source is defined and its fields satisfy
Maxwell's equations in vacuum, for every length, spread and mean. -/
theorem C79_dipole_maxwell (len s m x y z t : ℝ) (h : ¬ (x = 0 ∧ y = 0 ∧ z = 0)) :
    ∃ E H : VField, (∀ x y z t, ¬ (x = 0 ∧ y = 0 ∧ z = 0) →
        dipole len s m [x, y, z] t .E = some (E x y z t) ∧ dipole len s m [x, y, z] t .H = some (H x y z t)) ∧
      MaxwellAt E H x y z t :=
  ⟨_, _, fun x y z t h => ⟨dipole_closed len s m x y z t h .E, dipole_closed len s m x y z t h .H⟩,
    closed_maxwell _ _ m x y z t h⟩

/-- At the origin the dipole divides by zero. -/
theorem C79_origin (len s m t : ℝ) (ft : FieldType) : dipole len s m [0, 0, 0] t ft = none := by
  unfold dipole Spherical.ofCartesian
  simp [Spherical.radiusOf]

end

end Dgtd.Wave
