/-
Energy of one step of a time integrator for `x' = A x`, with `A` dissipative in a symmetric form: certificates.
-/
import Mathlib.LinearAlgebra.BilinearMap
import Mathlib.Data.Real.Basic
import Mathlib.Tactic.Ring
import Mathlib.Tactic.Linarith
import Mathlib.Tactic.LinearCombination
import Mathlib.Tactic.Module
import Mathlib.Tactic.Positivity

set_option linter.unusedSectionVars false

namespace Dgtd.TimeInt

variable {V : Type} [AddCommGroup V] [Module ℝ V]

/-- A symmetric form without negative values in which `Z` loses. -/
structure Diss (B : V →ₗ[ℝ] V →ₗ[ℝ] ℝ) (Z : V →ₗ[ℝ] V) : Prop where
  symm : ∀ u v, B u v = B v u
  nonneg : ∀ u, 0 ≤ B u u
  diss : ∀ u, B u (Z u) ≤ 0

theorem Diss.smul {B : V →ₗ[ℝ] V →ₗ[ℝ] ℝ} {A : V →ₗ[ℝ] V} (h : Diss B A) {s : ℝ} (hs : 0 ≤ s) : Diss B (s • A) where
  symm := h.symm
  nonneg := h.nonneg
  diss := fun u => by
    simp only [LinearMap.smul_apply, map_smul, smul_eq_mul]
    exact mul_nonpos_of_nonneg_of_nonpos hs (h.diss u)

/-- Two steps of the classical scheme of order four. -/
theorem rk4_twice {B : V →ₗ[ℝ] V →ₗ[ℝ] ℝ} {Z : V →ₗ[ℝ] V} (h : Diss B Z)
    (hb : ∀ u, B (Z u) (Z u) ≤ 1 / 16 * B u u) (R : V → V)
    (hR : ∀ u, R u = u + Z u + (1 / 2 : ℝ) • Z (Z u) + (1 / 6 : ℝ) • Z (Z (Z u)) + (1 / 24 : ℝ) • Z (Z (Z (Z u)))) (u : V) :
    B (R (R u)) (R (R u)) ≤ B u u := by
  obtain ⟨z1, e1⟩ : ∃ z, z = Z u := ⟨_, rfl⟩
  obtain ⟨z2, e2⟩ : ∃ z, z = Z z1 := ⟨_, rfl⟩
  obtain ⟨z3, e3⟩ : ∃ z, z = Z z2 := ⟨_, rfl⟩
  obtain ⟨z4, e4⟩ : ∃ z, z = Z z3 := ⟨_, rfl⟩
  obtain ⟨z5, e5⟩ : ∃ z, z = Z z4 := ⟨_, rfl⟩
  obtain ⟨z6, e6⟩ : ∃ z, z = Z z5 := ⟨_, rfl⟩
  obtain ⟨z7, e7⟩ : ∃ z, z = Z z6 := ⟨_, rfl⟩
  obtain ⟨z8, e8⟩ : ∃ z, z = Z z7 := ⟨_, rfl⟩
  have hRR : R (R u) = u + (2 : ℝ) • z1 + (2 : ℝ) • z2 + (4 / 3 : ℝ) • z3 + (2 / 3 : ℝ) • z4 + (1 / 4 : ℝ) • z5
      + (5 / 72 : ℝ) • z6 + (1 / 72 : ℝ) • z7 + (1 / 576 : ℝ) • z8 := by
    rw [hR, hR]
    simp only [map_add, map_smul, ← e1, ← e2, ← e3, ← e4, ← e5, ← e6, ← e7, ← e8]
    module
  have y0 := h.diss (u + z1 + (2 / 3 : ℝ) • z2 + (1 / 3 : ℝ) • z3 + (1 / 8 : ℝ) • z4 + (5 / 144 : ℝ) • z5
    + (1 / 144 : ℝ) • z6 + (1 / 1152 : ℝ) • z7)
  have y1 := h.diss (z1 + z2 + (5 / 8 : ℝ) • z3 + (13 / 48 : ℝ) • z4 + (1 / 12 : ℝ) • z5 + (7 / 384 : ℝ) • z6
    + (1 / 384 : ℝ) • z7)
  have y2 := h.diss (z2 + (3 / 2 : ℝ) • z3 + z4 + (19 / 48 : ℝ) • z5 + (5 / 48 : ℝ) • z6 + (1 / 48 : ℝ) • z7)
  have p34 := h.diss (z3 - (4 : ℝ) • z4)
  have p35 := h.diss (z3 - (16 : ℝ) • z5)
  have p36 := h.diss (z3 - (64 : ℝ) • z6)
  have p37 := h.diss (z3 - (256 : ℝ) • z7)
  have p45 := h.diss (z4 - (4 : ℝ) • z5)
  have p46 := h.diss (z4 - (16 : ℝ) • z6)
  have p47 := h.diss (z4 - (64 : ℝ) • z7)
  have p56 := h.diss (z5 - (4 : ℝ) • z6)
  have p67 := h.diss (z6 + (4 : ℝ) • z7)
  have p7 := h.diss z7
  have n3 := h.nonneg ((1 / 4 : ℝ) • z3 + z4)
  have n4 := h.nonneg ((1 / 4 : ℝ) • z4 + z5)
  have n5 := h.nonneg ((1 / 4 : ℝ) • z5 + z6)
  have n6 := h.nonneg ((1 / 4 : ℝ) • z6 + z7)
  have n7 := h.nonneg ((1 / 4 : ℝ) • z7 + z8)
  have m3 := h.nonneg z3
  have m7 := h.nonneg z7
  have b3 := hb z3
  have b4 := hb z4
  have b5 := hb z5
  have b6 := hb z6
  have b7 := hb z7
  rw [← e4] at b3
  rw [← e5] at b4
  rw [← e6] at b5
  rw [← e7] at b6
  rw [← e8] at b7
  rw [hRR]
  simp only [map_add, map_sub, map_smul, LinearMap.add_apply, LinearMap.sub_apply, LinearMap.smul_apply, smul_eq_mul,
    ← e1, ← e2, ← e3, ← e4, ← e5, ← e6, ← e7, ← e8] at *
  have s := h.symm
  simp only [s z1 u, s z2 u, s z3 u, s z4 u, s z5 u, s z6 u, s z7 u, s z8 u, s z2 z1, s z3 z1, s z4 z1, s z5 z1, s z6 z1,
    s z7 z1, s z8 z1, s z3 z2, s z4 z2, s z5 z2, s z6 z2, s z7 z2, s z8 z2, s z4 z3, s z5 z3, s z6 z3, s z7 z3, s z8 z3,
    s z5 z4, s z6 z4, s z7 z4, s z8 z4, s z6 z5, s z7 z5, s z8 z5, s z7 z6, s z8 z6, s z8 z7] at *
  linarith

/-- One step of the classical scheme of order four when nothing is lost. -/
theorem rk4_conservative {B : V →ₗ[ℝ] V →ₗ[ℝ] ℝ} {Z : V →ₗ[ℝ] V} (symm : ∀ u v, B u v = B v u)
    (cons : ∀ u, B u (Z u) = 0) (hb : ∀ u, B (Z u) (Z u) ≤ 8 * B u u) (R : V → V)
    (hR : ∀ u, R u = u + Z u + (1 / 2 : ℝ) • Z (Z u) + (1 / 6 : ℝ) • Z (Z (Z u)) + (1 / 24 : ℝ) • Z (Z (Z (Z u)))) (u : V) :
    B (R u) (R u) = B u u - 1 / 72 * B (Z (Z (Z u))) (Z (Z (Z u))) + 1 / 576 * B (Z (Z (Z (Z u)))) (Z (Z (Z (Z u)))) ∧
    B (R u) (R u) ≤ B u u := by
  have e : B (R u) (R u) = B u u - 1 / 72 * B (Z (Z (Z u))) (Z (Z (Z u))) +
      1 / 576 * B (Z (Z (Z (Z u)))) (Z (Z (Z (Z u)))) := by
    obtain ⟨z1, e1⟩ : ∃ z, z = Z u := ⟨_, rfl⟩
    obtain ⟨z2, e2⟩ : ∃ z, z = Z z1 := ⟨_, rfl⟩
    obtain ⟨z3, e3⟩ : ∃ z, z = Z z2 := ⟨_, rfl⟩
    obtain ⟨z4, e4⟩ : ∃ z, z = Z z3 := ⟨_, rfl⟩
    have c0 := cons u
    have c1 := cons z1
    have c2 := cons z2
    have c3 := cons z3
    have c01 := cons (u + z1)
    have c02 := cons (u + z2)
    have c03 := cons (u + z3)
    have c12 := cons (z1 + z2)
    have c13 := cons (z1 + z3)
    have c23 := cons (z2 + z3)
    rw [hR]
    simp only [map_add, map_smul, LinearMap.add_apply, LinearMap.smul_apply, smul_eq_mul, ← e1, ← e2, ← e3, ← e4] at *
    have s := symm
    simp only [s z1 u, s z2 u, s z3 u, s z4 u, s z2 z1, s z3 z1, s z4 z1, s z3 z2, s z4 z2, s z4 z3] at *
    linarith
  refine ⟨e, ?_⟩
  rw [e]
  have := hb (Z (Z (Z u)))
  linarith

/-- Bound of a single step of the classical scheme. -/
theorem rk4_once {B : V →ₗ[ℝ] V →ₗ[ℝ] ℝ} {Z : V →ₗ[ℝ] V} (h : Diss B Z)
    (hb : ∀ u, B (Z u) (Z u) ≤ 1 / 16 * B u u) (R : V → V)
    (hR : ∀ u, R u = u + Z u + (1 / 2 : ℝ) • Z (Z u) + (1 / 6 : ℝ) • Z (Z (Z u)) + (1 / 24 : ℝ) • Z (Z (Z (Z u)))) (u : V) :
    B (R u) (R u) ≤ 2 * B u u := by
  obtain ⟨z1, e1⟩ : ∃ z, z = Z u := ⟨_, rfl⟩
  obtain ⟨z2, e2⟩ : ∃ z, z = Z z1 := ⟨_, rfl⟩
  obtain ⟨z3, e3⟩ : ∃ z, z = Z z2 := ⟨_, rfl⟩
  obtain ⟨z4, e4⟩ : ∃ z, z = Z z3 := ⟨_, rfl⟩
  have b0 := hb u
  have b1 := hb z1
  have b2 := hb z2
  have b3 := hb z3
  have d0 := h.diss u
  have n1 := h.nonneg ((1 / 16 : ℝ) • u - z2)
  have n2 := h.nonneg ((1 / 64 : ℝ) • u - z3)
  have n3 := h.nonneg ((1 / 256 : ℝ) • u - z4)
  have n4 := h.nonneg ((1 / 4 : ℝ) • z1 - z2)
  have n5 := h.nonneg ((1 / 16 : ℝ) • z1 - z3)
  have n6 := h.nonneg ((1 / 64 : ℝ) • z1 - z4)
  have n7 := h.nonneg ((1 / 4 : ℝ) • z2 - z3)
  have n8 := h.nonneg ((1 / 16 : ℝ) • z2 - z4)
  have n9 := h.nonneg ((1 / 4 : ℝ) • z3 - z4)
  rw [hR]
  simp only [map_add, map_sub, map_smul, LinearMap.add_apply, LinearMap.sub_apply, LinearMap.smul_apply, smul_eq_mul,
    ← e1, ← e2, ← e3, ← e4] at *
  have s := h.symm
  simp only [s z1 u, s z2 u, s z3 u, s z4 u, s z2 z1, s z3 z1, s z4 z1, s z3 z2, s z4 z2, s z4 z3] at *
  have := h.nonneg u
  linarith

end Dgtd.TimeInt
