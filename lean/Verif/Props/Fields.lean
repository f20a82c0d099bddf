/-
C06: field components never alias.
-/
import Verif.Model.Fields
import Mathlib.Tactic.Ring
import Mathlib.Tactic.Linarith
import Mathlib.Tactic.FinCases
import Mathlib.Data.Rat.Defs

namespace Dgtd.Fields

open Dgtd.Op

variable {K : Type}

lemma comp_off (n : Nat) (f : FieldT) (d : Dir) : (comp n f d).off = (3 * f.idx + d.val) * n := by
  cases f <;> simp [comp, FieldT.idx, Nat.add_comm]

lemma comp_len (n : Nat) (f : FieldT) (d : Dir) : (comp n f d).len = n := by cases f <;> rfl

lemma slot_eq {n a b i j : Nat} (hi : i < n) (hj : j < n) (h : a * n + i = b * n + j) : a = b ∧ i = j := by
  have h1 : (a * n + i) / n = a := by
    rw [Nat.mul_comm, Nat.mul_add_div (by omega)]; simp [Nat.div_eq_of_lt hi]
  have h2 : (b * n + j) / n = b := by
    rw [Nat.mul_comm, Nat.mul_add_div (by omega)]; simp [Nat.div_eq_of_lt hj]
  have : a = b := by rw [← h1, ← h2, h]
  subst this
  exact ⟨rfl, by omega⟩

lemma comp_inj {f f' : FieldT} {d d' : Dir} (h : 3 * f.idx + d.val = 3 * f'.idx + d'.val) : f = f' ∧ d = d' := by
  have := d.isLt; have := d'.isLt
  cases f <;> cases f' <;> simp only [FieldT.idx] at h <;>
    first
    | exact ⟨rfl, Fin.ext (by omega)⟩
    | (exfalso; omega)

/-- **C06**, tiling: every position of the state vector belongs to exactly one component, at exactly one
local index. -/
theorem C06_components_tile (n : Nat) (k : Nat) (hk : k < 6 * n) :
    ∃ f d i, i < n ∧ (comp n f d).off + i = k ∧
      ∀ f' d' i', i' < (comp n f' d').len → (comp n f' d').off + i' = k → f' = f ∧ d' = d ∧ i' = i := by
  have hn : 0 < n := by omega
  have hq : k / n < 6 := (Nat.div_lt_iff_lt_mul hn).mpr hk
  have hm : k % n < n := Nat.mod_lt _ hn
  have hdm : k / n * n + k % n = k := by rw [Nat.mul_comm]; exact Nat.div_add_mod k n
  obtain ⟨f, d, hfd⟩ : ∃ (f : FieldT) (d : Dir), 3 * f.idx + d.val = k / n := by
    by_cases h : k / n < 3
    · exact ⟨.E, ⟨k / n, h⟩, by simp [FieldT.idx]⟩
    · exact ⟨.H, ⟨k / n - 3, by omega⟩, by simp [FieldT.idx]; omega⟩
  refine ⟨f, d, k % n, hm, ?_, ?_⟩
  · rw [comp_off, hfd, hdm]
  · intro f' d' i' hi' h
    rw [comp_len] at hi'
    rw [comp_off] at h
    obtain ⟨h1, h2⟩ := slot_eq hi' hm (h.trans hdm.symm)
    obtain ⟨rfl, rfl⟩ := comp_inj (h1.trans hfd.symm)
    exact ⟨rfl, rfl, h2⟩

/-- **C06**, isolation: writing an entry of a component succeeds, is read back, changes nothing else of any
component, and keeps the size. -/
theorem C06_write_isolated (n : Nat) (all : List K) (hl : all.length = 6 * n) (f : FieldT) (d : Dir) (i : Nat)
    (hi : i < n) (x : K) :
    ∃ all', set all (comp n f d) i x = some all' ∧ all'.length = 6 * n ∧
      ∀ f' d' j, j < n → get all' (comp n f' d') j =
        if f' = f ∧ d' = d ∧ j = i then some x else get all (comp n f' d') j := by
  have hb : ∀ f d, (comp n f d).off + n ≤ 6 * n := by
    intro f d
    rw [comp_off]
    have : 3 * f.idx + d.val ≤ 5 := by
      have := d.isLt; cases f <;> simp only [FieldT.idx] <;> omega
    nlinarith
  have hin : (comp n f d).off + i < all.length := by have := hb f d; omega
  refine ⟨all.set ((comp n f d).off + i) x, ?_, by simpa using hl, ?_⟩
  · unfold set; rw [if_pos ⟨by rw [comp_len]; exact hi, hin⟩]
  · intro f' d' j hj
    unfold get
    rw [comp_len, if_pos hj, List.getElem?_set]
    by_cases h : f' = f ∧ d' = d ∧ j = i
    · obtain ⟨rfl, rfl, rfl⟩ := h
      simp [hin]
    · rw [if_neg h, if_pos hj, if_neg]
      intro he
      apply h
      rw [comp_off, comp_off] at he
      obtain ⟨h1, h2⟩ := slot_eq hi hj he
      obtain ⟨rfl, rfl⟩ := comp_inj h1
      exact ⟨rfl, rfl, h2.symm⟩

/-- **C06**, aggregates: the E (H) view is exactly the three E (H) components one after the other. -/
theorem C06_aggregate_views (n : Nat) (all : List K) (hl : all.length = 6 * n) (f : FieldT) :
    (whole all f).len = 3 * n ∧
    ∀ (d : Dir) (i : Nat), i < n → get all (whole all f) (d.val * n + i) = get all (comp n f d) i := by
  have h2 : all.length / 2 = 3 * n := by omega
  constructor
  · cases f <;> simp [whole, h2]
  · intro d i hi
    have hd : d.val ≤ 2 := by have := d.isLt; omega
    have hlt : d.val * n + i < 3 * n := by nlinarith
    unfold get
    rw [comp_len, if_pos hi, comp_off]
    cases f
    · simp only [whole, h2, FieldT.idx]
      rw [if_pos hlt]; simp
    · simp only [whole, h2, FieldT.idx]
      rw [if_pos hlt]
      congr 1
      ring

/-- **C06**, addressing: the offsets the operator assembly and the spectral tool use are those of the
component views. -/
theorem C06_offsets_agree (n : Nat) (f : FieldT) (d : Dir) :
    rowStart n f d = (comp n f d).off ∧ getOffset n f d = (comp n f d).off := by
  constructor
  · rw [comp_off]; rfl
  · rw [comp_off]
    cases f <;> fin_cases d <;> simp [getOffset, FieldT.idx]

/-- Storage starts with every component zero. -/
theorem C06_initially_zero [Zero K] (n : Nat) (f : FieldT) (d : Dir) (i : Nat) (hi : i < n) :
    get (initial n) (comp n f d) i = some (0 : K) := by
  have : (comp n f d).off + n ≤ 6 * n := by
    rw [comp_off]
    have : 3 * f.idx + d.val ≤ 5 := by
      have := d.isLt; cases f <;> simp only [FieldT.idx] <;> omega
    nlinarith
  unfold get initial
  rw [comp_len, if_pos hi, List.getElem?_replicate, if_pos (by omega)]

example : set (initial 2 : List ℚ) (comp 2 .H 1) 1 7 =
    some [0, 0, 0, 0, 0, 0, 0, 0, 0, 7, 0, 0] := by decide +kernel

end Dgtd.Fields
