/-
Remainders of quadrature formulas for smooth fields, and what they make of one step with sources.
-/
import Verif.Lemmas.TimeIntPert

set_option linter.unusedSectionVars false

namespace Dgtd.TimeInt

open Implicit Spec

section
variable {V S : Type} [NormedAddCommGroup V] [NormedSpace ℝ V] [FiniteDimensional ℝ V]

/-- The first `m` derivatives of `v 0` are `v 1, v 2, …`. -/
def Smooth (m : Nat) (v : Nat → ℝ → V) : Prop := ∀ n < m, ∀ t, HasDerivAt (v n) (v (n + 1) t) t

theorem Smooth.tail {m : Nat} {v : Nat → ℝ → V} (h : Smooth (m + 1) v) : Smooth m (fun n => v (n + 1)) :=
  fun n hn t => h (n + 1) (by omega) t

theorem Smooth.map {m : Nat} {v : Nat → ℝ → V} (h : Smooth m v) (A : V →ₗ[ℝ] V) : Smooth m (fun n t => A (v n t)) := by
  intro n hn t
  exact (LinearMap.toContinuousLinearMap A).hasFDerivAt.comp_hasDerivAt t (h n hn t)

theorem Smooth.reflect {m : Nat} {v : Nat → ℝ → V} (h : Smooth m v) : Smooth m (fun n t => ((-1 : ℝ) ^ n) • v n (-t)) := by
  intro n hn t
  have h1 : HasDerivAt (fun s : ℝ => -s) (-1) t := hasDerivAt_neg t
  have h2 := ((h n hn (-t)).scomp t h1).const_smul ((-1 : ℝ) ^ n)
  have e : ((-1 : ℝ) ^ n) • (-1 : ℝ) • v (n + 1) (-t) = ((-1 : ℝ) ^ (n + 1)) • v (n + 1) (-t) := by
    rw [smul_smul, pow_succ]
  rw [e] at h2
  exact h2

/-- The Taylor polynomial. -/
noncomputable def tay (v : Nat → V) (m : Nat) (h : ℝ) : V := ∑ k ∈ Finset.range m, (h ^ k / (k.factorial : ℝ)) • v k

theorem tay_deriv (φ : V →ₗ[ℝ] ℝ) (v : Nat → V) (n : Nat) (h : ℝ) :
    HasDerivAt (fun s => φ (tay v (n + 1) s)) (φ (tay (fun k => v (k + 1)) n h)) h := by
  have e : (fun s => φ (tay v (n + 1) s)) =
      fun s => (∑ k ∈ Finset.range n, s ^ (k + 1) / ((k + 1).factorial : ℝ) * φ (v (k + 1))) + φ (v 0) := by
    funext s
    unfold tay
    rw [Finset.sum_range_succ', map_add, map_sum]
    simp
  have e' : φ (tay (fun k => v (k + 1)) n h) = ∑ k ∈ Finset.range n, h ^ k / (k.factorial : ℝ) * φ (v (k + 1)) := by
    unfold tay
    rw [map_sum]
    apply Finset.sum_congr rfl
    intro k _
    rw [map_smul, smul_eq_mul]
  rw [e, e']
  apply HasDerivAt.add_const
  apply HasDerivAt.fun_sum
  intro k _
  apply HasDerivAt.mul_const
  have := (hasDerivAt_pow (k + 1) h).div_const ((k + 1).factorial : ℝ)
  convert this using 1
  rw [Nat.factorial_succ]
  push_cast
  have : (k.factorial : ℝ) ≠ 0 := by exact_mod_cast k.factorial_ne_zero
  have : (k : ℝ) + 1 ≠ 0 := by positivity
  field_simp

/-- Remainder of the Taylor polynomial forward in time. -/
theorem tay_forward {B : V →ₗ[ℝ] V →ₗ[ℝ] ℝ} (hs : ∀ u v, B u v = B v u) (hn : ∀ u, 0 ≤ B u u) (m : Nat) :
    ∀ {v : Nat → ℝ → V}, Smooth m v → ∀ (t h K : ℝ), 0 ≤ h → (∀ s, t ≤ s → s ≤ t + h → nrm B (v m s) ≤ K) →
      nrm B (v 0 (t + h) - tay (fun k => v k t) m h) ≤ h ^ m / (m.factorial : ℝ) * K := by
  induction m with
  | zero =>
    intro v _ t h K hh hK
    simp only [tay, Finset.range_zero, Finset.sum_empty, sub_zero, pow_zero, Nat.factorial_zero, Nat.cast_one, div_one,
      one_mul]
    exact hK _ (by linarith) le_rfl
  | succ n ih =>
    intro v hv t h K hh hK
    obtain ⟨w, hw⟩ : ∃ w, w = v 0 (t + h) - tay (fun k => v k t) (n + 1) h := ⟨_, rfl⟩
    rw [← hw]
    obtain ⟨φ, hφ⟩ : ∃ φ : ℝ → ℝ, φ = fun s => s ^ (n + 1) / ((n + 1).factorial : ℝ) * (nrm B w * K) -
      B w (v 0 (t + s) - tay (fun k => v k t) (n + 1) s) := ⟨_, rfl⟩
    have hder : ∀ s, HasDerivAt φ (s ^ n / (n.factorial : ℝ) * (nrm B w * K) -
        B w (v 1 (t + s) - tay (fun k => v (k + 1) t) n s)) s := by
      intro s
      rw [hφ]
      apply HasDerivAt.sub
      · apply HasDerivAt.mul_const
        have := (hasDerivAt_pow (n + 1) s).div_const ((n + 1).factorial : ℝ)
        convert this using 1
        rw [Nat.factorial_succ]
        push_cast
        have : (n.factorial : ℝ) ≠ 0 := by exact_mod_cast n.factorial_ne_zero
        have : (n : ℝ) + 1 ≠ 0 := by positivity
        field_simp
      · have h1 : HasDerivAt (fun s => B w (v 0 (t + s))) (B w (v 1 (t + s))) s := by
          have h2 : HasDerivAt (fun s => v 0 (t + s)) (v 1 (t + s)) s := (hv 0 (by omega) (t + s)).comp_const_add t s
          exact (LinearMap.toContinuousLinearMap (B w)).hasFDerivAt.comp_hasDerivAt s h2
        have h3 := h1.sub (tay_deriv (B w) (fun k => v k t) n s)
        simp only [map_sub]
        exact h3
    have hmono : MonotoneOn φ (Set.Icc 0 h) := by
      apply monotoneOn_of_deriv_nonneg (convex_Icc 0 h)
      · exact fun s _ => (hder s).continuousAt.continuousWithinAt
      · exact fun s _ => (hder s).differentiableAt.differentiableWithinAt
      · intro s hs'
        rw [interior_Icc] at hs'
        rw [(hder s).deriv]
        have b1 := form_le hs hn w (v 1 (t + s) - tay (fun k => v (k + 1) t) n s)
        have b2 := ih hv.tail t s K hs'.1.le (fun r h1 h2 => hK r h1 (by linarith [hs'.2]))
        have b3 := mul_le_mul_of_nonneg_left b2 (nrm_nonneg B w)
        linarith
    have h0 : φ 0 = 0 := by
      rw [hφ]
      have : tay (fun k => v k t) (n + 1) 0 = v 0 t := by
        unfold tay
        rw [Finset.sum_range_succ']
        simp
      simp [this]
    have h1 := hmono (Set.left_mem_Icc.2 hh) (Set.right_mem_Icc.2 hh) hh
    rw [h0, hφ] at h1
    simp only [← hw] at h1
    rw [← nrm_sq hn] at h1
    have hK0 : 0 ≤ K := (nrm_nonneg _ _).trans (hK t le_rfl (by linarith))
    by_cases hz : nrm B w = 0
    · rw [hz]
      positivity
    · have hp : 0 < nrm B w := lt_of_le_of_ne (nrm_nonneg B w) (Ne.symm hz)
      have : 0 ≤ nrm B w * (h ^ (n + 1) / ((n + 1).factorial : ℝ) * K - nrm B w) := by nlinarith
      linarith [(mul_nonneg_iff_of_pos_left hp).1 this]

/-- The same in both directions. -/
theorem tay_both {B : V →ₗ[ℝ] V →ₗ[ℝ] ℝ} (hs : ∀ u v, B u v = B v u) (hn : ∀ u, 0 ≤ B u u) {m : Nat}
    {v : Nat → ℝ → V} (hv : Smooth m v) (t h K : ℝ) (hK : ∀ s, |s - t| ≤ |h| → nrm B (v m s) ≤ K) :
    nrm B (v 0 (t + h) - tay (fun k => v k t) m h) ≤ |h| ^ m / (m.factorial : ℝ) * K := by
  rcases le_total 0 h with h0 | h0
  · rw [abs_of_nonneg h0] at hK ⊢
    exact tay_forward hs hn m hv t h K h0 fun s h1 h2 => hK s (abs_le.2 ⟨by linarith, by linarith⟩)
  · rw [abs_of_nonpos h0] at hK ⊢
    have := tay_forward hs hn m hv.reflect (-t) (-h) K (by linarith) (by
      intro s h1 h2
      rw [nrm_smul, abs_pow, abs_neg, abs_one, one_pow, one_mul]
      exact hK _ (abs_le.2 ⟨by linarith, by linarith⟩))
    have e : tay (fun k => ((-1 : ℝ) ^ k) • v k (- -t)) m (-h) = tay (fun k => v k t) m h := by
      unfold tay
      apply Finset.sum_congr rfl
      intro k _
      rw [smul_smul, neg_neg]
      congr 1
      rw [div_mul_eq_mul_div, ← mul_pow]
      ring
    rw [e] at this
    rw [show - (-t + -h) = t + h by ring, pow_zero, one_smul] at this
    exact this

/-- A quadrature formula: nodes `c` with weights `p` of the values and `q` of the derivatives. -/
noncomputable def quad (v : Nat → ℝ → V) (t dt : ℝ) (l : List (ℝ × ℝ × ℝ)) : V :=
  (l.map fun x => x.2.1 • v 0 (t + x.1 * dt) + (x.2.2 * dt) • v 1 (t + x.1 * dt)).sum

/-- What it makes of the power `j`. -/
def moment (l : List (ℝ × ℝ × ℝ)) (j : Nat) : ℝ := (l.map fun x => x.2.1 * x.1 ^ j + x.2.2 * ((j : ℝ) * x.1 ^ (j - 1))).sum

/-- What it makes of the power `m` in absolute value. -/
noncomputable def gross (l : List (ℝ × ℝ × ℝ)) (m : Nat) : ℝ :=
  (l.map fun x => |x.2.1| * |x.1| ^ m + |x.2.2| * ((m : ℝ) * |x.1| ^ (m - 1))).sum

theorem quad_poly {B : V →ₗ[ℝ] V →ₗ[ℝ] ℝ} (hs : ∀ u v, B u v = B v u) (hn : ∀ u, 0 ≤ B u u) {m : Nat}
    {v : Nat → ℝ → V} (hv : Smooth (m + 1) v) (t dt r K : ℝ) (hdt : 0 ≤ dt)
    (hK : ∀ s, |s - t| ≤ r * dt → nrm B (v (m + 1) s) ≤ K) (l : List (ℝ × ℝ × ℝ)) (hl : ∀ x ∈ l, |x.1| ≤ r) :
    nrm B (quad v t dt l - ∑ j ∈ Finset.range (m + 1), (dt ^ j / (j.factorial : ℝ) * moment l j) • v j t) ≤
      gross l (m + 1) * (dt ^ (m + 1) / ((m + 1).factorial : ℝ) * K) := by
  induction l with
  | nil => simp [quad, moment, gross, nrm]
  | cons x l ih =>
    have ih := ih fun y hy => hl y (List.mem_cons_of_mem _ hy)
    have hx := hl x List.mem_cons_self
    obtain ⟨c, p, q⟩ := x
    simp only at hx
    have hw : |c * dt| ≤ r * dt := by rw [abs_mul, abs_of_nonneg hdt]; exact mul_le_mul_of_nonneg_right hx hdt
    have t0 := tay_both hs hn hv t (c * dt) K fun s h => hK s (h.trans hw)
    have t1 := tay_both hs hn hv.tail t (c * dt) K fun s h => hK s (h.trans hw)
    obtain ⟨r0, hr0⟩ : ∃ r0, r0 = v 0 (t + c * dt) - tay (fun k => v k t) (m + 1) (c * dt) := ⟨_, rfl⟩
    obtain ⟨r1, hr1⟩ : ∃ r1, r1 = v 1 (t + c * dt) - tay (fun k => v (k + 1) t) m (c * dt) := ⟨_, rfl⟩
    rw [← hr0] at t0
    simp only [zero_add] at t1
    rw [← hr1] at t1
    have e : quad v t dt ((c, p, q) :: l) -
        ∑ j ∈ Finset.range (m + 1), (dt ^ j / (j.factorial : ℝ) * moment ((c, p, q) :: l) j) • v j t =
        (p • r0 + (q * dt) • r1) +
          (quad v t dt l - ∑ j ∈ Finset.range (m + 1), (dt ^ j / (j.factorial : ℝ) * moment l j) • v j t) := by
      have e1 : ∑ j ∈ Finset.range (m + 1), (dt ^ j / (j.factorial : ℝ) * moment ((c, p, q) :: l) j) • v j t =
          p • tay (fun k => v k t) (m + 1) (c * dt) + (q * dt) • tay (fun k => v (k + 1) t) m (c * dt) +
          ∑ j ∈ Finset.range (m + 1), (dt ^ j / (j.factorial : ℝ) * moment l j) • v j t := by
        have a : ∀ j, (dt ^ j / (j.factorial : ℝ) * moment ((c, p, q) :: l) j) • v j t =
            (p * ((c * dt) ^ j / (j.factorial : ℝ))) • v j t +
            ((q * (j * c ^ (j - 1))) * (dt ^ j / (j.factorial : ℝ))) • v j t +
            (dt ^ j / (j.factorial : ℝ) * moment l j) • v j t := by
          intro j
          rw [← add_smul, ← add_smul]
          congr 1
          simp only [moment, List.map_cons, List.sum_cons]
          rw [mul_pow]
          ring
        rw [Finset.sum_congr rfl fun j _ => a j, Finset.sum_add_distrib, Finset.sum_add_distrib]
        congr 2
        · unfold tay
          rw [Finset.smul_sum]
          exact Finset.sum_congr rfl fun j _ => by rw [smul_smul]
        · unfold tay
          rw [Finset.sum_range_succ', Finset.smul_sum]
          simp only [Nat.cast_zero, zero_mul, mul_zero, zero_smul, add_zero]
          refine Finset.sum_congr rfl fun j _ => ?_
          rw [smul_smul]
          congr 1
          rw [Nat.factorial_succ, Nat.add_sub_cancel, mul_pow]
          push_cast
          have : (j.factorial : ℝ) ≠ 0 := by exact_mod_cast j.factorial_ne_zero
          have : (j : ℝ) + 1 ≠ 0 := by positivity
          field_simp
          try ring
      rw [e1, hr0, hr1]
      simp only [quad, List.map_cons, List.sum_cons]
      module
    rw [e]
    have k1 := nrm_add_le hs hn (p • r0 + (q * dt) • r1)
      (quad v t dt l - ∑ j ∈ Finset.range (m + 1), (dt ^ j / (j.factorial : ℝ) * moment l j) • v j t)
    have k2 := nrm_add_le hs hn (p • r0) ((q * dt) • r1)
    rw [nrm_smul, nrm_smul, abs_mul, abs_of_nonneg hdt] at k2
    have k3 := mul_le_mul_of_nonneg_left t0 (abs_nonneg p)
    have k4 := mul_le_mul_of_nonneg_left t1 (mul_nonneg (abs_nonneg q) hdt)
    have g : gross ((c, p, q) :: l) (m + 1) = |p| * |c| ^ (m + 1) + |q| * ((m + 1 : Nat) * |c| ^ m) + gross l (m + 1) := by
      simp [gross]
    have e3 : |p| * (|c * dt| ^ (m + 1) / ((m + 1).factorial : ℝ) * K) =
        |p| * |c| ^ (m + 1) * (dt ^ (m + 1) / ((m + 1).factorial : ℝ) * K) := by
      rw [abs_mul, abs_of_nonneg hdt, mul_pow]
      ring
    have e4 : |q| * dt * (|c * dt| ^ m / (m.factorial : ℝ) * K) =
        |q| * ((m + 1 : Nat) * |c| ^ m) * (dt ^ (m + 1) / ((m + 1).factorial : ℝ) * K) := by
      rw [abs_mul, abs_of_nonneg hdt, mul_pow, Nat.factorial_succ]
      push_cast
      have : (m.factorial : ℝ) ≠ 0 := by exact_mod_cast m.factorial_ne_zero
      have : (m : ℝ) + 1 ≠ 0 := by positivity
      field_simp
      try ring
    rw [e3] at k3
    rw [e4] at k4
    rw [g]
    nlinarith

/-- A formula that is exact for polynomials of degree `m`. -/
theorem quad_le {B : V →ₗ[ℝ] V →ₗ[ℝ] ℝ} (hs : ∀ u v, B u v = B v u) (hn : ∀ u, 0 ≤ B u u) (m : Nat)
    {v : Nat → ℝ → V} (hv : Smooth (m + 1) v) {t dt r K C : ℝ} (hdt : 0 ≤ dt)
    (hK : ∀ s, |s - t| ≤ r * dt → nrm B (v (m + 1) s) ≤ K) (l : List (ℝ × ℝ × ℝ)) (hl : ∀ x ∈ l, |x.1| ≤ r)
    (h0 : ∀ j ≤ m, moment l j = 0) (hr : 0 ≤ r) (hC : gross l (m + 1) ≤ C * ((m + 1).factorial : ℝ)) :
    nrm B (quad v t dt l) ≤ C * (dt ^ (m + 1) * K) := by
  have h := quad_poly hs hn hv t dt r K hdt hK l hl
  have z : ∑ j ∈ Finset.range (m + 1), (dt ^ j / (j.factorial : ℝ) * moment l j) • v j t = 0 := by
    apply Finset.sum_eq_zero
    intro j hj
    rw [h0 j (by have := Finset.mem_range.1 hj; omega), mul_zero, zero_smul]
  rw [z, sub_zero] at h
  refine h.trans ?_
  have hK0 : 0 ≤ K := (nrm_nonneg _ _).trans (hK t (by rw [sub_self, abs_zero]; positivity))
  have hf : (0 : ℝ) < ((m + 1).factorial : ℝ) := by exact_mod_cast Nat.factorial_pos _
  have := mul_le_mul_of_nonneg_right hC (by positivity : 0 ≤ dt ^ (m + 1) / ((m + 1).factorial : ℝ) * K)
  refine this.trans (le_of_eq ?_)
  field_simp

end

end Dgtd.TimeInt
