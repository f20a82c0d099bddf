import Verif.Model.FloatClock
import Verif.Spec.FloatClock
import Mathlib.Algebra.Order.Archimedean.Basic
import Mathlib.Algebra.Order.Floor.Ring
import Mathlib.Tactic.Linarith
import Mathlib.Tactic.Positivity
import Mathlib.Tactic.FieldSimp
import Mathlib.Tactic.Ring
import Mathlib.Tactic.NormNum
import Mathlib.Tactic.Push

set_option linter.unusedSectionVars false

namespace Dgtd.FloatClock
open Spec

variable {K : Type*} [Field K] [LinearOrder K] [IsStrictOrderedRing K]

lemma double_zero : Double (0 : K) := ⟨0, 0, by norm_num, by simp⟩

lemma double_neg {x : K} (h : Double x) : Double (-x) := by
  obtain ⟨m, e, hm, rfl⟩ := h
  exact ⟨-m, e, by rwa [abs_neg], by push_cast; ring⟩

section rounding
variable {fl : K → K} (hfl : Nearest fl)
include hfl

lemma fl_id {x : K} (h : Double x) : fl x = x := by
  have := hfl.nearest x x h
  rw [sub_self, abs_zero] at this
  have := abs_eq_zero.1 (le_antisymm this (abs_nonneg _))
  linarith

lemma fl_mono {x y : K} (h : x ≤ y) : fl x ≤ fl y := by
  rcases h.eq_or_lt with rfl | h
  · exact le_rfl
  by_contra hc
  push Not at hc
  have h1 := hfl.nearest x _ (hfl.double y)
  have h2 := hfl.nearest y _ (hfl.double x)
  rcases abs_cases (x - fl x) with a | a <;> rcases abs_cases (x - fl y) with b | b <;>
    rcases abs_cases (y - fl y) with c | c <;> rcases abs_cases (y - fl x) with d | d <;> linarith

lemma fl_le {x y : K} (hy : Double y) (h : x ≤ y) : fl x ≤ y := (fl_mono hfl h).trans (fl_id hfl hy).le

lemma le_fl {x y : K} (hy : Double y) (h : y ≤ x) : y ≤ fl x := (fl_id hfl hy).ge.trans (fl_mono hfl h)

end rounding

lemma zpow2_pos (e : ℤ) : (0 : K) < 2 ^ e := zpow_pos (by norm_num) e

/-- Doubles close to a positive number on both sides. -/
lemma neighbours [FloorRing K] [Archimedean K] {x : K} (hx : 0 < x) :
    ∃ a b s : K, Double a ∧ Double b ∧ a ≤ x ∧ x ≤ b ∧ b = a + s ∧ 2 ^ 52 * s ≤ x ∧
      ∀ z : K, Double z → z ≤ a ∨ b ≤ z := by
  obtain ⟨e, h1, h2⟩ := exists_mem_Ico_zpow hx (by norm_num : (1 : K) < 2)
  have hs : (0 : K) < 2 ^ (e - 52) := zpow2_pos _
  have e1 : (2 : K) ^ e = 2 ^ (52 : ℕ) * 2 ^ (e - 52) := by
    rw [← zpow_natCast, ← zpow_add₀ (by norm_num)]; congr 1; push_cast; ring
  have e2 : (2 : K) ^ (e + 1) = 2 ^ (53 : ℕ) * 2 ^ (e - 52) := by
    rw [← zpow_natCast, ← zpow_add₀ (by norm_num)]; congr 1; push_cast; ring
  obtain ⟨s, hse⟩ : ∃ s : K, s = 2 ^ (e - 52) := ⟨_, rfl⟩
  rw [← hse] at hs e1 e2
  have hq1 : (⌊x / s⌋ : K) ≤ x / s := Int.floor_le _
  have hq2 : x / s < ⌊x / s⌋ + 1 := Int.lt_floor_add_one _
  obtain ⟨q, hq⟩ : ∃ q : ℤ, q = ⌊x / s⌋ := ⟨_, rfl⟩
  rw [← hq] at hq1 hq2
  rw [le_div_iff₀ hs] at hq1
  rw [div_lt_iff₀ hs] at hq2
  have l1 : (0 : ℤ) ≤ q := by
    rw [hq]; exact Int.floor_nonneg.2 (div_nonneg hx.le hs.le)
  have l2 : q < 2 ^ 53 := by
    have : (q : K) * s < 2 ^ 53 * s := by linarith
    have := lt_of_mul_lt_mul_right this hs.le
    exact_mod_cast this
  refine ⟨q * s, (q + 1) * s, s, ⟨q, e - 52, ?_, by rw [hse]⟩, ⟨q + 1, e - 52, ?_, by rw [hse]; push_cast; ring⟩, hq1, hq2.le, by ring, by
    rw [← e1]; exact h1, ?_⟩
  · rw [abs_of_nonneg l1]; omega
  · rw [abs_of_nonneg (by omega)]; omega
  · rintro z ⟨k, f, hk, rfl⟩
    rcases le_or_gt (e - 52) f with hef | hef
    · obtain ⟨d, rfl⟩ := Int.le.dest hef
      have e3 : (k : K) * 2 ^ (e - 52 + (d : ℤ)) = ((k * 2 ^ d : ℤ) : K) * s := by
        rw [zpow_add₀ (by norm_num), zpow_natCast, ← hse]; push_cast; ring
      rw [e3]
      rcases le_or_gt (k * 2 ^ d) q with h | h
      · left; exact mul_le_mul_of_nonneg_right (by exact_mod_cast h) hs.le
      · right; exact mul_le_mul_of_nonneg_right (by exact_mod_cast h) hs.le
    · left
      have l3 : (2 : ℤ) ^ 52 ≤ q := by
        rw [hq]; apply Int.le_floor.2; rw [le_div_iff₀ hs]; push_cast; linarith
      have hk' : (k : K) ≤ 2 ^ 53 := by
        have := (le_abs_self k).trans hk
        exact_mod_cast this
      have e4 : (2 : K) ^ 52 * s = 2 ^ (53 : ℕ) * 2 ^ (e - 53) := by
        rw [← e1, ← zpow_natCast, ← zpow_add₀ (by norm_num)]; congr 1; push_cast; ring
      calc (k : K) * 2 ^ f ≤ 2 ^ 53 * 2 ^ f := mul_le_mul_of_nonneg_right hk' (zpow2_pos f).le
        _ ≤ 2 ^ 53 * 2 ^ (e - 53) := mul_le_mul_of_nonneg_left (zpow_le_zpow_right₀ (by norm_num) (by omega)) (by positivity)
        _ = 2 ^ 52 * s := e4.symm
        _ ≤ q * s := mul_le_mul_of_nonneg_right (by exact_mod_cast l3) hs.le

/-- A double just below a positive number. -/
lemma below [FloorRing K] [Archimedean K] {x : K} (hx : 0 < x) :
    ∃ z : K, Double z ∧ z < x ∧ 2 ^ 52 * (x - z) ≤ x := by
  obtain ⟨e, h1, h2⟩ := exists_mem_Ico_zpow hx (by norm_num : (1 : K) < 2)
  have hs : (0 : K) < 2 ^ (e - 52) := zpow2_pos _
  have e1 : (2 : K) ^ e = 2 ^ (52 : ℕ) * 2 ^ (e - 52) := by
    rw [← zpow_natCast, ← zpow_add₀ (by norm_num)]; congr 1; push_cast; ring
  have e2 : (2 : K) ^ (e + 1) = 2 ^ (53 : ℕ) * 2 ^ (e - 52) := by
    rw [← zpow_natCast, ← zpow_add₀ (by norm_num)]; congr 1; push_cast; ring
  obtain ⟨s, hse⟩ : ∃ s : K, s = 2 ^ (e - 52) := ⟨_, rfl⟩
  rw [← hse] at hs e1 e2
  have hq1 : x / s ≤ (⌈x / s⌉ : K) := Int.le_ceil _
  have hq2 : (⌈x / s⌉ : K) < x / s + 1 := Int.ceil_lt_add_one _
  obtain ⟨q, hq⟩ : ∃ q : ℤ, q = ⌈x / s⌉ := ⟨_, rfl⟩
  rw [← hq] at hq1 hq2
  rw [div_le_iff₀ hs] at hq1
  have hq3 : ((q : K) - 1) * s < x := by
    rw [← lt_div_iff₀ hs]; linarith
  have l1 : (1 : ℤ) ≤ q := by
    rw [hq]; exact Int.one_le_ceil_iff.2 (div_pos hx hs)
  have l2 : q - 1 < 2 ^ 53 := by
    have : ((q : K) - 1) * s < 2 ^ 53 * s := by linarith
    have := lt_of_mul_lt_mul_right this hs.le
    exact_mod_cast this
  refine ⟨((q : K) - 1) * s, ⟨q - 1, e - 52, ?_, by rw [hse]; push_cast; ring⟩, hq3, ?_⟩
  · rw [abs_of_nonneg (by omega)]; omega
  · calc (2 : K) ^ 52 * (x - ((q : K) - 1) * s) ≤ 2 ^ 52 * s := by
          apply mul_le_mul_of_nonneg_left _ (by positivity); linarith
      _ ≤ x := by rw [← e1]; exact h1

/-- Relative error of rounding. -/
lemma fl_error [FloorRing K] [Archimedean K] {fl : K → K} (hfl : Nearest fl) {x : K} (hx : 0 ≤ x) :
    2 ^ 53 * |x - fl x| ≤ x := by
  rcases hx.eq_or_lt with rfl | hx
  · rw [fl_id hfl double_zero]; simp
  obtain ⟨a, b, s, ha, hb, h1, h2, h3, h4, -⟩ := neighbours hx
  have := hfl.nearest x a ha
  have := hfl.nearest x b hb
  rw [abs_of_nonneg (by linarith : 0 ≤ x - a)] at *
  rw [abs_of_nonpos (by linarith : x - b ≤ 0)] at *
  have : |x - fl x| ≤ s / 2 := by linarith
  calc (2 : K) ^ 53 * |x - fl x| ≤ 2 ^ 53 * (s / 2) := mul_le_mul_of_nonneg_left this (by positivity)
    _ = 2 ^ 52 * s := by ring
    _ ≤ x := h4

/-- The difference of two different doubles is a multiple of the spacing of one of them. -/
lemma gap {x z : K} (hx : Double x) (hz : Double z) (hx0 : 0 < x) (h : z ≠ x) : x ≤ 2 ^ 54 * |x - z| := by
  by_cases hhalf : z < x / 2
  · rw [abs_of_pos (by linarith)]
    have : x / 2 ≤ x - z := by linarith
    calc x ≤ 2 ^ 54 * (x / 2) := by linarith
      _ ≤ _ := mul_le_mul_of_nonneg_left this (by positivity)
  push Not at hhalf
  obtain ⟨m, e, hm, rfl⟩ := hx
  obtain ⟨k, f, hk, rfl⟩ := hz
  have hm' : (m : K) ≤ 2 ^ 53 := by
    have := (le_abs_self m).trans hm
    exact_mod_cast this
  have hk' : (k : K) ≤ 2 ^ 53 := by
    have := (le_abs_self k).trans hk
    exact_mod_cast this
  have key : ∀ (a b : ℤ) (g : ℤ), (a : K) * 2 ^ g - b * 2 ^ g ≠ 0 → (2 : K) ^ g ≤ |(a : K) * 2 ^ g - b * 2 ^ g| := by
    intro a b g hne
    have hab : a - b ≠ 0 := by
      intro h0; apply hne; rw [← sub_mul]
      have : (a : K) - b = ((a - b : ℤ) : K) := by push_cast; ring
      rw [this, h0]; simp
    have h1 : (1 : ℤ) ≤ |a - b| := Int.one_le_abs hab
    have h1' : (1 : K) ≤ |(a : K) - b| := by exact_mod_cast h1
    rw [← sub_mul, abs_mul, abs_of_pos (zpow2_pos (K := K) g)]
    exact le_mul_of_one_le_left (zpow2_pos g).le h1'
  have hne : (m : K) * 2 ^ e - k * 2 ^ f ≠ 0 := fun h0 => h (by linarith)
  have hp := zpow2_pos (K := K) e
  have hpf := zpow2_pos (K := K) f
  rcases le_total e f with hef | hef
  · obtain ⟨d, rfl⟩ := Int.le.dest hef
    have e1 : (k : K) * 2 ^ (e + (d : ℤ)) = ((k * 2 ^ d : ℤ) : K) * 2 ^ e := by
      rw [zpow_add₀ (by norm_num), zpow_natCast]; push_cast; ring
    rw [e1] at hne ⊢
    have := key _ _ _ hne
    calc (m : K) * 2 ^ e ≤ 2 ^ 53 * 2 ^ e := mul_le_mul_of_nonneg_right hm' hp.le
      _ ≤ 2 ^ 54 * 2 ^ e := mul_le_mul_of_nonneg_right (by norm_num) hp.le
      _ ≤ _ := mul_le_mul_of_nonneg_left this (by positivity)
  · obtain ⟨d, rfl⟩ := Int.le.dest hef
    have e1 : (m : K) * 2 ^ (f + (d : ℤ)) = ((m * 2 ^ d : ℤ) : K) * 2 ^ f := by
      rw [zpow_add₀ (by norm_num), zpow_natCast]; push_cast; ring
    rw [e1] at hne hhalf ⊢
    have := key _ _ _ hne
    have h2 : (k : K) * 2 ^ f ≤ 2 ^ 53 * 2 ^ f := mul_le_mul_of_nonneg_right hk' hpf.le
    calc ((m * 2 ^ d : ℤ) : K) * 2 ^ f ≤ 2 * (2 ^ 53 * 2 ^ f) := by linarith
      _ = 2 ^ 54 * 2 ^ f := by ring
      _ ≤ _ := mul_le_mul_of_nonneg_left this (by positivity)

/-- Differences of doubles within a factor of two are doubles. -/
lemma sterbenz {x z : K} (hx : Double x) (hz : Double z) (h1 : x ≤ z) (h2 : z ≤ 2 * x) : Double (z - x) := by
  obtain ⟨m, e, hm, rfl⟩ := hx
  obtain ⟨k, f, hk, rfl⟩ := hz
  have hp := zpow2_pos (K := K) e
  have hpf := zpow2_pos (K := K) f
  rcases le_total e f with hef | hef
  · obtain ⟨d, rfl⟩ := Int.le.dest hef
    have e1 : (k : K) * 2 ^ (e + (d : ℤ)) = ((k * 2 ^ d : ℤ) : K) * 2 ^ e := by
      rw [zpow_add₀ (by norm_num), zpow_natCast]; push_cast; ring
    rw [e1] at h1 h2 ⊢
    refine ⟨k * 2 ^ d - m, e, ?_, by push_cast; ring⟩
    have a1 : (m : K) ≤ ((k * 2 ^ d : ℤ) : K) := le_of_mul_le_mul_right h1 hp
    have a2 : ((k * 2 ^ d : ℤ) : K) ≤ 2 * m := by
      apply le_of_mul_le_mul_right _ hp; rw [mul_assoc]; exact h2
    have b1 : m ≤ k * 2 ^ d := by exact_mod_cast a1
    have b2 : k * 2 ^ d ≤ 2 * m := by exact_mod_cast a2
    have := (le_abs_self m).trans hm
    rw [abs_of_nonneg (by omega)]; omega
  · obtain ⟨d, rfl⟩ := Int.le.dest hef
    have e1 : (m : K) * 2 ^ (f + (d : ℤ)) = ((m * 2 ^ d : ℤ) : K) * 2 ^ f := by
      rw [zpow_add₀ (by norm_num), zpow_natCast]; push_cast; ring
    rw [e1] at h1 h2 ⊢
    refine ⟨k - m * 2 ^ d, f, ?_, by push_cast; ring⟩
    have a1 : ((m * 2 ^ d : ℤ) : K) ≤ k := le_of_mul_le_mul_right h1 hpf
    have a2 : (k : K) ≤ 2 * ((m * 2 ^ d : ℤ) : K) := by
      apply le_of_mul_le_mul_right _ hpf; rw [mul_assoc]; exact h2
    have b1 : m * 2 ^ d ≤ k := by exact_mod_cast a1
    have b2 : k ≤ 2 * (m * 2 ^ d) := by exact_mod_cast a2
    have := (le_abs_self k).trans hk
    rw [abs_of_nonneg (by omega)]; omega

lemma double_half {x : K} (h : Double x) : Double (x / 2) := by
  obtain ⟨m, e, hm, rfl⟩ := h
  refine ⟨m, e - 1, hm, ?_⟩
  rw [zpow_sub_one₀ (by norm_num)]; ring

end Dgtd.FloatClock
