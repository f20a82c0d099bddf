import Verif.Lemmas.TimeLoop
import Mathlib.Data.Nat.Basic
import Mathlib.Algebra.Order.Archimedean.Basic

set_option linter.unusedSectionVars false

namespace Dgtd.TimeLoop

open Spec

variable {K : Type*} [Field K] [LinearOrder K] [IsStrictOrderedRing K]

lemma length_filter_dvd (k : Nat) (N : Nat) (_hk : 0 < k) :
    ((List.range (N + 1)).filter fun (c : Nat) => decide ((k : Int) ∣ (c : Int))).length = N / k + 1 := by
  induction N with
  | zero => simp
  | succ N ih =>
    rw [List.range_succ (n := N + 1), List.filter_append, List.length_append, ih, Nat.succ_div]
    by_cases h : k ∣ N + 1
    · have : (k : Int) ∣ ((N + 1 : Nat) : Int) := Int.natCast_dvd_natCast.mpr h
      simp only [List.filter_cons, this, h]
      simp
    · have : ¬ (k : Int) ∣ ((N + 1 : Nat) : Int) := fun h' => h (Int.natCast_dvd_natCast.mp h')
      simp only [List.filter_cons, this, h]
      simp

lemma length_filter_or_le {α : Type*} (p q : α → Bool) (l : List α) :
    (l.filter fun a => p a || q a).length ≤ (l.filter p).length + (l.filter q).length := by
  induction l with
  | nil => simp
  | cons a l ih =>
    by_cases hp : p a <;> by_cases hq : q a <;> simp [hp, hq] <;> omega

lemma length_filter_or_ge {α : Type*} (p q : α → Bool) (l : List α) :
    (l.filter q).length ≤ (l.filter fun a => p a || q a).length := by
  induction l with
  | nil => simp
  | cons a l ih =>
    by_cases hp : p a <;> by_cases hq : q a <;> simp [hp, hq] <;> omega

lemma length_filter_range_le (p : Nat → Bool) (N m : Nat) (h : ∀ c, c + m < N → p c = false) :
    ((List.range N).filter p).length ≤ m := by
  by_cases hm : N ≤ m
  · calc _ ≤ (List.range N).length := List.length_filter_le _ _
      _ ≤ m := by simpa using hm
  · have e : N = (N - m) + m := by omega
    rw [e, List.range_add, List.filter_append, List.length_append]
    have : (List.range (N - m)).filter p = [] := by
      rw [List.filter_eq_nil_iff]
      intro c hc
      have := List.mem_range.mp hc
      simp [h c (by omega)]
    rw [this]
    calc _ ≤ 0 + (List.map (fun x => N - m + x) (List.range m)).length :=
            Nat.add_le_add (by simp) (List.length_filter_le _ _)
      _ = m := by simp

lemma stepCount_le_total [FloorRing K] {dt final : K} :
    (stepCount dt final : Int) ≤ max 0 (totalSteps final dt) := by
  unfold stepCount totalSteps
  have h : ⌊final / dt - 1 / 100000000⌋ + 1 ≤ ⌈final / dt⌉ := by
    have h1 : ⌊final / dt - 1 / 100000000⌋ < ⌈final / dt⌉ := by
      rw [Int.floor_lt]
      have := Int.le_ceil (final / dt)
      have p : (0 : K) < 1 / 100000000 := by positivity
      linarith
    omega
  omega

lemma total_le_stepCount_succ [FloorRing K] {dt final : K} :
    totalSteps final dt ≤ (stepCount dt final : Int) + 1 := by
  unfold stepCount totalSteps
  have h : ⌈final / dt⌉ ≤ ⌊final / dt - 1 / 100000000⌋ + 2 := by
    rw [Int.ceil_le]
    have := Int.lt_floor_add_one (final / dt - 1 / 100000000)
    push_cast
    have p : (1 / 100000000 : K) < 1 := by norm_num
    linarith
  omega

end Dgtd.TimeLoop
