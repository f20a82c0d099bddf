/-
C04, C05: assembling the global sparse operator from placed blocks.
-/
import Verif.Lemmas.Csr
import Mathlib.Data.Rat.Defs
import Mathlib.Tactic.IntervalCases
import Mathlib.Algebra.BigOperators.Group.List.Lemmas

set_option linter.unusedSectionVars false
set_option linter.unusedSimpArgs false

namespace Dgtd.Csr

open Spec

variable {K : Type} [CommRing K]

/-- **C04**.  For every list of blocks, offsets and signs whose entries fall inside the global
dimensions — in any order, with any overlap — the merge never leaves its arrays (it returns), whatever
the fresh memory contained; the result is a well-formed CSR structure (row pointers delimit exactly the
data written, no row holds a column twice) and is entry-by-entry the sum of the placed blocks. -/
theorem C04_merge_is_sum (blocks : List (Placement K)) (rows cols : Nat)
    (h : InBounds blocks rows cols) (junkJ : Int) (junkA : K) :
    ∃ m, merge junkJ junkA blocks rows cols = some m ∧ WellFormed m rows cols ∧
      ∀ r < rows, ∀ c : Int, csrEntry m r c = sumEntry blocks r c := by
  have hb := cols_of_inBounds h
  refine ⟨_, merge_eq blocks rows cols hb junkJ junkA, ?_, ?_⟩
  · have hlen : ∀ n, ((List.range n).flatMap fun r => keys (merged blocks r)).length = offs blocks n := by
      intro n; rw [List.length_flatMap]; simp [offs]
    have hlen' : ∀ n, ((List.range n).flatMap fun r => vals (merged blocks r)).length = offs blocks n := by
      intro n; rw [List.length_flatMap]; simp [offs]
    constructor
    · simp
    · simp [List.getElem?_range, offs]
    · simp only
      rw [List.getElem?_map, List.getElem?_range (by omega), hlen]; rfl
    · simp only
      rw [hlen, hlen']
    · simp only
      rw [List.pairwise_map]
      exact List.pairwise_lt_range.imp (fun hab => offs_mono blocks (le_of_lt hab))
    · intro c hc
      obtain ⟨r, hr, hc⟩ := List.mem_flatMap.mp hc
      have hr := List.mem_range.mp hr
      have := (foldl_acc_mem_keys (rowEntries blocks r) [] c).mp hc
      simp only [keys, List.map_nil, List.not_mem_nil, false_or] at this
      obtain ⟨e, he, rfl⟩ := List.mem_map.mp this
      exact hb r hr e he
    · intro r hr
      rw [csrRow_merge blocks rows r hr]
      exact foldl_acc_keys_nodup _ _ (by simp)
  · intro r hr c
    unfold csrEntry
    rw [csrRow_merge blocks rows r hr]
    have := colSum_foldl_acc (rowEntries blocks r) [] c
    rw [colSum_rowEntries] at this
    unfold merged
    rw [← show colSum [] c + sumEntry blocks r c = sumEntry blocks r c by simp [colSum], ← this]
    rfl

/-- The result does not depend on the previous contents of the allocated memory. -/
theorem C04_no_uninitialised_data (blocks : List (Placement K)) (rows cols : Nat)
    (h : InBounds blocks rows cols) (j j' : Int) (a a' : K) :
    merge j a blocks rows cols = merge j' a' blocks rows cols := by
  have hb := cols_of_inBounds h
  rw [merge_eq blocks rows cols hb j a, merge_eq blocks rows cols hb j' a']

/-- Two overlapping blocks with opposite signs and an empty row meet the hypothesis. -/
def exBlocks : List (Placement ℚ) :=
  [ { rows := [[(0, 2), (2, 3)], []], rowOffset := 0, colOffset := 1, sign := 1 },
    { rows := [[(3, 5), (0, 7)]], rowOffset := 0, colOffset := 0, sign := -1 },
    { rows := [[(0, 1)], [(1, 4), (1, 4)]], rowOffset := 1, colOffset := 2, sign := 1 } ]

example : InBounds exBlocks 3 4 := by
  intro bp hbp i hi h0 h1 e he
  simp only [exBlocks, List.mem_cons, List.not_mem_nil, or_false] at hbp
  rcases hbp with rfl | rfl | rfl <;> simp only [List.length_cons, List.length_nil] at hi
  · interval_cases i
    · simp at he; rcases he with rfl | rfl <;> simp
    · simp at he
  · interval_cases i
    simp at he; rcases he with rfl | rfl <;> simp
  · interval_cases i
    · simp at he; subst he; simp
    · simp at he; subst he; simp

example : (merge 99 99 exBlocks 3 4).map (fun m => (m.ci, m.cj, m.ca)) =
    some ([0, 3, 4, 5], [1, 3, 0, 2, 3], [2, -2, -7, 1, 8]) := by decide +kernel

/-! ### C05 -/

lemma foldl_add_row (bp : Placement K) (r : Nat) (l : List (Int × K)) (dst : Int → Int → K) (i j : Int) :
    (l.foldl (fun (dst : Int → Int → K) e =>
      fun i j => if i = bp.rowOffset + r ∧ j = bp.colOffset + e.1 then dst i j + e.2 * bp.sign
        else dst i j) dst) i j =
      dst i j + if i = bp.rowOffset + r then bp.sign * colSum l (j - bp.colOffset) else 0 := by
  induction l generalizing dst with
  | nil => simp [colSum]
  | cons e l ih =>
    rw [List.foldl_cons, ih]
    unfold colSum
    simp only [List.map_cons, List.sum_cons]
    by_cases h : i = bp.rowOffset + r
    · simp only [h, true_and, if_true]
      by_cases h2 : j = bp.colOffset + e.1
      · rw [if_pos h2, if_pos (show e.1 = j - bp.colOffset by omega)]; ring
      · rw [if_neg h2, if_neg (show ¬ e.1 = j - bp.colOffset by omega)]; ring
    · simp only [h, false_and, if_false]

lemma loadBlock_eq (n : Nat) (bp : Placement K) (dst : Int → Int → K) (i j : Int) :
    loadBlock n dst bp i j = dst i j +
      if 0 ≤ i - bp.rowOffset ∧ i - bp.rowOffset < n then
        bp.sign * blockEntry bp.rows (i - bp.rowOffset) (j - bp.colOffset) else 0 := by
  unfold loadBlock
  induction n with
  | zero => rw [if_neg (by omega)]; simp
  | succ n ih =>
    rw [List.range_succ, List.foldl_append, List.foldl_cons, List.foldl_nil, foldl_add_row, ih]
    by_cases h : i = bp.rowOffset + n
    · subst h
      have e : bp.rowOffset + (n : Int) - bp.rowOffset = n := by ring
      rw [if_neg (by omega), if_pos rfl, if_pos (by push_cast; omega), e]
      unfold blockEntry colSum
      rw [if_pos (by omega)]; simp
    · rw [if_neg h, add_zero]
      congr 1
      by_cases h2 : 0 ≤ i - bp.rowOffset ∧ i - bp.rowOffset < n
      · rw [if_pos h2, if_pos (by push_cast; omega)]
      · rw [if_neg h2, if_neg (by push_cast; omega)]

lemma loadAll_eq (blocks : List (Placement K)) (dst : Int → Int → K) (i j : Int) :
    (blocks.foldl (fun d bp => loadBlock bp.rows.length d bp) dst) i j = dst i j + sumEntry blocks i j := by
  induction blocks generalizing dst with
  | nil => simp [sumEntry]
  | cons bp bs ih =>
    rw [List.foldl_cons, ih, loadBlock_eq]
    unfold sumEntry
    rw [List.map_cons, List.sum_cons, add_assoc]
    congr 2
    split_ifs with h
    · rfl
    · unfold blockEntry
      by_cases h0 : 0 ≤ i - bp.rowOffset
      · rw [if_pos h0, List.getElem?_eq_none (by omega)]; simp
      · rw [if_neg h0]; simp

lemma sum_range_ite (cols : Nat) (k : Int) (h0 : 0 ≤ k) (h1 : k < cols) (v : K) (x : Int → K) :
    ((List.range cols).map fun (c : Nat) => (if k = (c : Int) then v else 0) * x c).sum = v * x k := by
  obtain ⟨n, rfl⟩ := Int.eq_ofNat_of_zero_le h0
  induction cols with
  | zero => simp at h1; omega
  | succ m ih =>
    rw [List.range_succ, List.map_append, List.sum_append]
    by_cases h : n = m
    · subst h
      have : ((List.range n).map fun (c : Nat) => (if (n : Int) = (c : Int) then v else 0) * x c).sum = 0 := by
        apply List.sum_eq_zero
        intro y hy
        obtain ⟨c, hc, rfl⟩ := List.mem_map.mp hy
        have := List.mem_range.mp hc
        rw [if_neg (by omega), zero_mul]
      rw [this]; simp
    · rw [ih (by push_cast at h1; omega)]
      simp only [List.map_cons, List.map_nil, List.sum_cons, List.sum_nil, add_zero]
      rw [if_neg (by omega)]; simp

lemma csrMul_eq_matMul (l : List (Int × K)) (cols : Nat) (h : ∀ e ∈ l, 0 ≤ e.1 ∧ e.1 < (cols : Int))
    (x : Int → K) :
    (l.map fun e => e.2 * x e.1).sum =
      ((List.range cols).map fun (c : Nat) => colSum l c * x c).sum := by
  induction l with
  | nil => simp [colSum]
  | cons e l ih =>
    rw [List.map_cons, List.sum_cons, ih (fun e he => h e (by simp [he])),
      ← sum_range_ite cols e.1 (h e (by simp)).1 (h e (by simp)).2 e.2 x, ← List.sum_map_add]
    congr 1
    apply List.map_congr_left
    intro c _
    unfold colSum
    simp only [List.map_cons, List.sum_cons]; ring

/-- **C05**.  Scattering the blocks one at a time into a global matrix that starts at zero, and merging
them all at once, give the same entries and the same action on every vector, for every sequence of
blocks inside the global dimensions. -/
theorem C05_routes_agree (blocks : List (Placement K)) (rows cols : Nat)
    (h : InBounds blocks rows cols) (junkJ : Int) (junkA : K) :
    ∃ m, merge junkJ junkA blocks rows cols = some m ∧
      let scattered := blocks.foldl (fun d bp => loadBlock bp.rows.length d bp) (fun _ _ => 0)
      (∀ r < rows, ∀ c : Int, csrEntry m r c = scattered r c) ∧
      ∀ x : Int → K, ∀ r < rows, csrMul m x r = matMul cols scattered x r := by
  obtain ⟨m, hm, hw, hs⟩ := C04_merge_is_sum blocks rows cols h junkJ junkA
  have key : ∀ r < rows, ∀ c : Int, csrEntry m r c =
      (blocks.foldl (fun d bp => loadBlock bp.rows.length d bp) (fun _ _ => 0)) r c := by
    intro r hr c
    rw [hs r hr, loadAll_eq]; simp
  refine ⟨m, hm, key, ?_⟩
  intro x r hr
  unfold csrMul matMul
  rw [csrMul_eq_matMul (csrRow m r) cols ?_ x]
  · congr 1
    apply List.map_congr_left
    intro c _
    rw [← key r hr]; rfl
  · intro e he
    apply hw.cols_range
    unfold csrRow at he
    have := List.mem_of_mem_drop (List.mem_of_mem_take he)
    exact (List.of_mem_zip (show (e.1, e.2) ∈ m.cj.zip m.ca from this)).1

/-- The order in which blocks are supplied is irrelevant to the operator. -/
theorem C05_order_irrelevant (b1 b2 : List (Placement K)) (hp : b1.Perm b2) (rows cols : Nat)
    (h : InBounds b1 rows cols) (junkJ : Int) (junkA : K) :
    ∃ m1 m2, merge junkJ junkA b1 rows cols = some m1 ∧ merge junkJ junkA b2 rows cols = some m2 ∧
      ∀ r < rows, ∀ c : Int, csrEntry m1 r c = csrEntry m2 r c := by
  have h2 : InBounds b2 rows cols := fun bp hbp => h bp (hp.mem_iff.mpr hbp)
  obtain ⟨m1, hm1, -, hs1⟩ := C04_merge_is_sum b1 rows cols h junkJ junkA
  obtain ⟨m2, hm2, -, hs2⟩ := C04_merge_is_sum b2 rows cols h2 junkJ junkA
  refine ⟨m1, m2, hm1, hm2, fun r hr c => ?_⟩
  rw [hs1 r hr, hs2 r hr]
  exact (hp.map _).sum_eq

end Dgtd.Csr
