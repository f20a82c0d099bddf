/-
Sequences of assignments into a flat array, with bounds.

A loop nest whose body only assigns values (computed from data the loop does not change) is modelled by the list
of its assignments `array[index] = value`, in program order.
-/
import Mathlib.Logic.Function.Basic

namespace Dgtd

variable {K : Type}

/-- `a[i] = x` on an array of `size` entries; outside of it the behaviour is undefined.
(src/evolution/GlobalEvolution.cpp:605-611, 843-881) -/
def wr1 (size : Nat) (a : Nat → K) (i : Int) (x : K) : Option (Nat → K) :=
  if 0 ≤ i ∧ i < size then some (Function.update a i.toNat x) else none

/-- The assignments of `ws`, one after the other. (src/evolution/GlobalEvolution.cpp:605-611, 843-994) -/
def exec (size : Nat) : List (Int × K) → (Nat → K) → Option (Nat → K)
  | [], a => some a
  | w :: ws, a => (wr1 size a w.1 w.2).bind (exec size ws)

/-- `a[i]` on an array of `size` entries. (src/evolution/GlobalEvolution.cpp:843-881) -/
def rd1 (size : Nat) (a : Nat → K) (i : Int) : Option K :=
  if 0 ≤ i ∧ i < size then some (a i.toNat) else none

theorem exec_append (size : Nat) (ws vs : List (Int × K)) (a : Nat → K) :
    exec size (ws ++ vs) a = (exec size ws a).bind (exec size vs) := by
  induction ws generalizing a with
  | nil => rfl
  | cons w ws ih =>
    simp only [List.cons_append, exec, Option.bind_assoc]
    congr 1
    funext b
    exact ih b

/-- In-range assignments always complete. -/
theorem exec_completes (size : Nat) (ws : List (Int × K)) (a : Nat → K)
    (h : ∀ w ∈ ws, 0 ≤ w.1 ∧ w.1 < size) : ∃ b, exec size ws a = some b := by
  induction ws generalizing a with
  | nil => exact ⟨a, rfl⟩
  | cons w ws ih =>
    obtain ⟨b, hb⟩ := ih (Function.update a w.1.toNat w.2) (fun v hv => h v (List.mem_cons_of_mem _ hv))
    exact ⟨b, by simp [exec, wr1, h w (by simp), hb]⟩

/-- An out-of-range assignment is noticed. -/
theorem exec_inRange {size : Nat} {ws : List (Int × K)} {a b : Nat → K} (h : exec size ws a = some b) :
    ∀ w ∈ ws, 0 ≤ w.1 ∧ w.1 < size := by
  induction ws generalizing a with
  | nil => simp
  | cons w ws ih =>
    simp only [exec, Option.bind_eq_some_iff] at h
    obtain ⟨a', h1, h2⟩ := h
    intro v hv
    rcases List.mem_cons.1 hv with rfl | hv
    · unfold wr1 at h1
      split at h1
      · assumption
      · exact absurd h1 (by simp)
    · exact ih h2 v hv

/-- Entries that are not assigned keep their value. -/
theorem exec_other {size : Nat} {ws : List (Int × K)} {a b : Nat → K} (h : exec size ws a = some b) (k : Nat)
    (hk : ∀ w ∈ ws, w.1 ≠ (k : Int)) : b k = a k := by
  induction ws generalizing a with
  | nil => simp only [exec, Option.some.injEq] at h; rw [h]
  | cons w ws ih =>
    have hr := exec_inRange h w (by simp)
    simp only [exec, Option.bind_eq_some_iff] at h
    obtain ⟨a', h1, h2⟩ := h
    rw [ih h2 (fun v hv => hk v (List.mem_cons_of_mem _ hv))]
    simp only [wr1, hr, and_self, if_true, Option.some.injEq] at h1
    rw [← h1, Function.update_of_ne]
    have := hk w (by simp)
    omega

/-- An entry assigned at least once, always with the same value, holds that value. -/
theorem exec_value {size : Nat} {ws : List (Int × K)} {a b : Nat → K} (h : exec size ws a = some b) (k : Nat)
    (v : K) (hv : ∀ w ∈ ws, w.1 = (k : Int) → w.2 = v) (hk : ∃ w ∈ ws, w.1 = (k : Int)) : b k = v := by
  induction ws generalizing a with
  | nil => obtain ⟨w, hw, -⟩ := hk; simp at hw
  | cons w ws ih =>
    have hr := exec_inRange h w (by simp)
    have hh := h
    simp only [exec, Option.bind_eq_some_iff] at h
    obtain ⟨a', h1, h2⟩ := h
    by_cases hex : ∃ w ∈ ws, w.1 = (k : Int)
    · exact ih h2 (fun u hu => hv u (List.mem_cons_of_mem _ hu)) hex
    · have hw : w.1 = (k : Int) := by
        obtain ⟨u, hu, hue⟩ := hk
        rcases List.mem_cons.1 hu with rfl | hu
        · exact hue
        · exact absurd ⟨u, hu, hue⟩ hex
      rw [exec_other h2 k (fun u hu he => hex ⟨u, hu, he⟩)]
      simp only [wr1, hr, and_self, if_true, Option.some.injEq] at h1
      rw [← h1, hw]
      simp [hv w (by simp) hw]

end Dgtd
