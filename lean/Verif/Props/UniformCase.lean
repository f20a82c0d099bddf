/-
C150: a mode of a cavity meets the hypotheses.
-/
import Verif.Props.Uniform
import Verif.Props.ConvergenceCase

namespace Dgtd.Galerkin.Case
open MvPolynomial Spec Dgtd.Op Dgtd.Op.Spec
open Dgtd.Implicit Dgtd.TimeInt Dgtd.TimeInt.Spec
open Dgtd.Galerkin
open scoped ContDiff

lemma dxs_bound (T : ℝ) (k : Nat) : ∀ {g : Event 2 → ℝ} (_ : ContDiff ℝ ∞ g), ∃ B, 0 ≤ B ∧ ∀ t, 0 ≤ t → t ≤ T → ∀ y : Fin 2 → ℝ,
    (∀ i, 0 ≤ y i ∧ y i ≤ 1) → ∀ l : List (Fin 2), l.length = k → |dxs l g (t, y)| ≤ B := by
  induction k with
  | zero =>
    intro g hg
    obtain ⟨B, h0, hB⟩ := bound_one T hg.continuous
    refine ⟨B, h0, fun t h1 h2 y hy l hl => ?_⟩
    rw [List.length_eq_zero_iff] at hl
    subst hl
    exact hB t h1 h2 y hy
  | succ k ih =>
    intro g hg
    obtain ⟨B0, h0, hB0⟩ := ih (contDiff_dx hg 0)
    obtain ⟨B1, h1, hB1⟩ := ih (contDiff_dx hg 1)
    refine ⟨B0 + B1, by positivity, fun t ht hT y hy l hl => ?_⟩
    obtain ⟨l', m, rfl⟩ : ∃ l' m, l = l' ++ [m] := ⟨l.dropLast, l.getLast (by intro h; simp [h] at hl), (List.dropLast_append_getLast _).symm⟩
    rw [dxs_append]
    have hl' : l'.length = k := by simpa using hl
    fin_cases m
    · exact (hB0 t ht hT y hy l' hl').trans (by linarith)
    · exact (hB1 t ht hT y hy l' hl').trans (by linarith)

lemma bounded_any (T : ℝ) (k : Nat) {F : Solution 1 (Fin 3 ⊕ Fin 3)} (hF : ∀ a f d, ContDiff ℝ ∞ (F a f d)) : ∃ B, 0 ≤ B ∧ Bounded cavity T F k B := by
  have one : ∀ a f d, ∃ B, 0 ≤ B ∧ ∀ t, 0 ≤ t → t ≤ T → ∀ y : Fin 2 → ℝ, (∀ i, 0 ≤ y i ∧ y i ≤ 1) → ∀ l : List (Fin 2), l.length = k →
      |dxs l (F a f d) (t, y)| ≤ B ∧ |dxs l (dt (F a f d)) (t, y)| ≤ B := by
    intro a f d
    obtain ⟨B1, h1, k1⟩ := dxs_bound T k (hF a f d)
    obtain ⟨B2, h2, k2⟩ := dxs_bound T k (contDiff_dt (hF a f d))
    exact ⟨B1 + B2, by positivity, fun t h0 hT y hy l hl => ⟨(k1 t h0 hT y hy l hl).trans (by linarith), (k2 t h0 hT y hy l hl).trans (by linarith)⟩⟩
  choose b h0 hb using one
  obtain ⟨Q, hQ⟩ : ∃ Q : Elem 1 (Fin 3 ⊕ Fin 3) ℝ → ℝ, Q = fun a => (b a .E 0 + b a .E 1 + b a .E 2) + (b a .H 0 + b a .H 1 + b a .H 2) := ⟨_, rfl⟩
  have hQ0 : ∀ a, 0 ≤ Q a := by
    intro a
    have := h0 a .E 0; have := h0 a .E 1; have := h0 a .E 2; have := h0 a .H 0; have := h0 a .H 1; have := h0 a .H 2
    rw [hQ]; positivity
  have hQ1 : ∀ a f d, b a f d ≤ Q a := by
    intro a f d
    have := h0 a .E 0; have := h0 a .E 1; have := h0 a .E 2; have := h0 a .H 0; have := h0 a .H 1; have := h0 a .H 2
    rw [hQ]
    cases f <;> fin_cases d <;> simp <;> linarith
  have q1 := hQ0 lower
  have q3 := hQ0 upper
  refine ⟨Q lower + Q upper, by positivity, ?_⟩
  intro c hc t ht hT y hy f d l hl
  have hs := in_square hc hy
  simp only [cavity, pairSetup, List.mem_cons, List.not_mem_nil, or_false] at hc
  rcases hc with rfl | rfl
  · have k1 := hb lower f d t ht hT y hs l hl
    have k2 := hQ1 lower f d
    exact ⟨k1.1.trans (by linarith), k1.2.trans (by linarith)⟩
  · have k1 := hb upper f d t ht hT y hs l hl
    have k2 := hQ1 upper f d
    exact ⟨k1.1.trans (by linarith), k1.2.trans (by linarith)⟩

lemma rate_smooth {F : Solution 1 (Fin 3 ⊕ Fin 3)} (hF : ∀ a f d, ContDiff ℝ ∞ (F a f d)) (i : Nat) : ∀ a f d, ContDiff ℝ ∞ (rate^[i] F a f d) := by
  induction i with
  | zero => exact hF
  | succ i ih =>
    intro a f d
    rw [Function.iterate_succ_apply']
    exact contDiff_dt (ih a f d)

lemma bounded_mono {T : ℝ} {F : Solution 1 (Fin 3 ⊕ Fin 3)} {k : Nat} {B B' : ℝ} (h : Bounded cavity T F k B) (hB : B ≤ B') : Bounded cavity T F k B' :=
  fun c hc t h0 hT y hy f d l hl => ⟨(h c hc t h0 hT y hy f d l hl).1.trans hB, (h c hc t h0 hT y hy f d l hl).2.trans hB⟩

lemma cavity_regular (T : ℝ) (k : Nat) : ∃ B, 0 ≤ B ∧ Regular cavity T mode 1 k B := by
  induction k with
  | zero =>
    obtain ⟨B1, h1, b1⟩ := bounded_any T 2 (rate_smooth mode_smooth 0)
    obtain ⟨B2, h2, b2⟩ := bounded_any T 0 (rate_smooth mode_smooth 0)
    refine ⟨B1 + B2, by positivity, fun i hi => ?_⟩
    obtain rfl : i = 0 := by omega
    exact ⟨bounded_mono b1 (by linarith), bounded_mono b2 (by linarith)⟩
  | succ k ih =>
    obtain ⟨B, h0, hB⟩ := ih
    obtain ⟨B1, h1, b1⟩ := bounded_any T 2 (rate_smooth mode_smooth (k + 1))
    obtain ⟨B2, h2, b2⟩ := bounded_any T 0 (rate_smooth mode_smooth (k + 1))
    refine ⟨B + B1 + B2, by positivity, fun i hi => ?_⟩
    rcases Nat.lt_or_ge i (k + 1) with hl | hg
    · exact ⟨bounded_mono (hB i (by omega)).1 (by linarith), bounded_mono (hB i (by omega)).2 (by linarith)⟩
    · obtain rfl : i = k + 1 := by omega
      exact ⟨bounded_mono b1 (by linarith), bounded_mono b2 (by linarith)⟩

lemma cavity_all (T : ℝ) (k : Nat) : ∃ B, Resolves cavity vacuum 1 2 1 1 1 1 B T mode corner3 ∧ Regular cavity T mode 1 k B := by
  obtain ⟨B1, r⟩ := cavity_resolves T
  obtain ⟨B2, h2, b2⟩ := cavity_regular T k
  have h1 := r.bound
  exact ⟨B1 + B2, { r with bounded := bounded_mono r.bounded (by linarith), bound := by linarith },
    fun i hi => ⟨bounded_mono (b2 i hi).1 (by linarith), bounded_mono (b2 i hi).2 (by linarith)⟩⟩

example : ∃ K cfl B, 0 ≤ K ∧ 0 < cfl ∧ ∃ P A, cavity.fem vacuum = .ok P ∧
    (∀ u : State (Fin 3 ⊕ Fin 3) ℝ, A.mulVec (flat u) = flat (globalMult P.prob u)) ∧
    ∀ (q : Sdirk ℝ) (x : State (Fin 3 ⊕ Fin 3) ℝ), Sampled cavity corner3 mode 0 x →
      ∀ (dt last : ℝ) (k : Nat), 0 ≤ last → last ≤ dt → dt ≤ cfl * 1 → k * dt + last ≤ 10 →
        ∃ y c, run q .rk4 (globalTdo A fun _ => 0) (List.replicate k dt ++ [last]) (flat x) 0 fresh = some (flat y, k * dt + last, c) ∧
          ∀ s, Sampled cavity corner3 mode (k * dt + last) s →
            √(fieldEnergy cavity vacuum (y - s)) ≤ K * (1 + (k * dt + last)) * √(volume cavity) * (B * (1 ^ 1 + dt ^ 4)) := by
  obtain ⟨K, cfl, hK, hc, h⟩ := C150_explicit 1 1 2 1 1 1 1 one_pos le_rfl zero_le_one zero_le_one
  obtain ⟨B, r, b⟩ := cavity_all 10 5
  exact ⟨K, cfl, B, hK, hc, h _ cavity vacuum 1 B 10 mode corner3 rfl r (by norm_num) b⟩

example : ∃ K B, 0 ≤ K ∧ ∃ P A, cavity.fem vacuum = .ok P ∧
    (∀ u : State (Fin 3 ⊕ Fin 3) ℝ, A.mulVec (flat u) = flat (globalMult P.prob u)) ∧
    ∀ (q : Sdirk ℝ) (_ : Ideal33 q) (x : State (Fin 3 ⊕ Fin 3) ℝ), Sampled cavity corner3 mode 0 x →
      ∀ (H : ℝ) (dts : List ℝ), (∀ dt ∈ dts, 0 ≤ dt ∧ dt ≤ H) → 0 ≤ H → dts.sum ≤ 10 →
        ∃ y c, run q .sdirk33 (globalTdo A fun _ => 0) dts (flat x) 0 fresh = some (flat y, dts.sum, c) ∧
          ∀ s, Sampled cavity corner3 mode dts.sum s →
            √(fieldEnergy cavity vacuum (y - s)) ≤ K * (1 + dts.sum) * √(volume cavity) * (B * (1 ^ 1 + H ^ 3)) := by
  obtain ⟨K, hK, h⟩ := C150_implicit 1 1 2 1 1 1 1 one_pos le_rfl zero_le_one zero_le_one
  obtain ⟨B, r, b⟩ := cavity_all 10 4
  obtain ⟨P, A, hP, hA, hr⟩ := h _ cavity vacuum 1 B 10 mode corner3 rfl r (by norm_num)
  exact ⟨K, B, hK, P, A, hP, hA, fun q hq => hr q hq .sdirk33 (by decide) b⟩

end Dgtd.Galerkin.Case
