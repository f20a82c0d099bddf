/-
C157: the exported operator, applied outside the program to an exported state, gives the rates of that state.
-/
import Verif.Spec.Export
import Verif.Props.Csr
import Verif.Props.Decimal
import Verif.Lemmas.OpCsr
import Verif.Props.Spectral
import Mathlib.Data.List.Flatten
import Mathlib.Algebra.Order.BigOperators.Group.List

set_option linter.unusedSectionVars false

namespace Dgtd.Export

open Spec Dgtd.Csr Dgtd.Csr.Spec Dgtd.Decimal

section
variable {K : Type} [Field K] [LinearOrder K]

theorem storedRow_eq (m : CSR K) (r : Nat) : storedRow m r = csrRow m r := rfl

theorem zip_map_pair (l : List (Int × K)) : (l.map Prod.fst).zip (l.map Prod.snd) = l := by
  induction l with
  | nil => rfl
  | cons a l ih => simp [ih]

theorem csrRow_ofRows (rows : List (List (Int × K))) (r : Nat) (h : r < rows.length) :
    csrRow (ofRows rows) r = rows[r] := by
  have e := List.drop_take_succ_flatten_eq_getElem rows r h
  unfold csrRow ofRows
  simp only [zip_map_pair]
  rw [List.getElem?_map, List.getElem?_map, List.getElem?_range (by omega), List.getElem?_range (by omega)]
  simp only [Option.map_some, Option.getD_some]
  rw [← List.drop_take]
  exact e

theorem threshold_row (m : CSR K) (height r : Nat) (h : r < height) :
    csrRow (threshold m height) r = (csrRow m r).filter fun e => decide (1 / 10 ^ 20 < |e.2|) := by
  unfold threshold
  rw [csrRow_ofRows _ _ (by simpa using h)]
  simp [storedRow_eq]

end

theorem counts_map (l : List Nat) : counts (l.map .count) = some l := by
  induction l with
  | nil => rfl
  | cons a l ih => simp [counts, ih]

theorem nums_map (p : Nat) (l : List ℚ) : nums p (l.map fun a => .num (sci p a)) = some (l.map fun a => (sci p a).value p) := by
  induction l with
  | nil => rfl
  | cons a l ih => simp [nums, ih]

theorem read_ofRows (rows : List (List (Int × ℚ))) (w : Nat) (hc : ∀ r ∈ rows, ∀ e ∈ r, 0 ≤ e.1) :
    readCsr (csr2 rows.length w (ofRows rows)) =
      some (rows.length, w, ofRows (rows.map fun r => r.map fun e => (e.1, (sci 5 e.2).value 5))) := by
  obtain ⟨m, hm⟩ : ∃ m, m = ofRows rows := ⟨_, rfl⟩
  have h1 : m.ci.length = rows.length + 1 := by simp [hm, ofRows]
  have h2 : m.ci.getLast? = some m.cj.length := by
    rw [hm]; unfold ofRows
    simp only [List.range_succ, List.map_append, List.map_cons, List.map_nil, List.getLast?_concat, Option.some.injEq,
      List.length_map, List.length_flatten]
    rw [List.take_of_length_le (by simp)]
  have h3 : m.ca.length = m.cj.length := by rw [hm]; unfold ofRows; rw [List.length_map, List.length_map]
  have h4 : (m.cj.map Int.toNat).map Int.ofNat = m.cj := by
    rw [List.map_map]
    conv_rhs => rw [← List.map_id m.cj]
    apply List.map_congr_left
    intro c hcm
    rw [hm] at hcm
    simp only [ofRows, List.mem_map, List.mem_flatten] at hcm
    obtain ⟨e, ⟨r, hr, he⟩, rfl⟩ := hcm
    exact Int.toNat_of_nonneg (hc r hr e he)
  have h5 : (ofRows (rows.map fun r => r.map fun e => (e.1, (sci 5 e.2).value 5))) =
      ⟨m.ci, m.cj, m.ca.map fun a => (sci 5 a).value 5⟩ := by
    rw [hm]
    simp only [ofRows, CSR.mk.injEq, List.map_map, Function.comp_def, List.length_map, true_and]
    rw [← List.map_flatten, List.map_map, List.map_map]
    exact ⟨rfl, rfl⟩
  rw [h5, ← hm]
  obtain ⟨a, ha⟩ : ∃ a, a = m.ci.map Line.count := ⟨_, rfl⟩
  obtain ⟨b, hb⟩ : ∃ b, b = (m.cj.map Int.toNat).map Line.count := ⟨_, rfl⟩
  obtain ⟨c, hcc⟩ : ∃ c, c = m.ca.map fun a => Line.num (sci 5 a) := ⟨_, rfl⟩
  have e0 : csr2 rows.length w m = .count rows.length :: .count w :: (a ++ (b ++ c)) := by
    simp [csr2, List.map_map, Function.comp_def, ha, hb, hcc]
  have la : a.length = rows.length + 1 := by simp [ha, h1]
  have lb : b.length = m.cj.length := by simp [hb]
  have t1 : (a ++ (b ++ c)).take (rows.length + 1) = a := by rw [← la, List.take_left]
  have t2 : (a ++ (b ++ c)).drop (rows.length + 1) = b ++ c := by rw [← la, List.drop_left]
  have t3 : (b ++ c).take m.cj.length = b := by rw [← lb, List.take_left]
  have t4 : (b ++ c).drop m.cj.length = c := by rw [← lb, List.drop_left]
  rw [e0]
  simp only [readCsr, t1, Option.bind_eq_bind, t2, ← List.drop_drop]
  rw [ha, counts_map, Option.bind_some, h2, Option.bind_some, t3, t4, hb, counts_map, Option.bind_some, hcc, nums_map,
    Option.bind_some, if_pos (by simp [h1, h3]), h4]

theorem readState_mor (t : ℚ) (x : List ℚ) : readState (morFile t x) = some (x.map fun v => (sci 16 v).value 16) := by
  simp [readState, morFile, nums_map]

theorem readStateAsDocumented_mor (t : ℚ) (x : List ℚ) : readStateAsDocumented (morFile t x) = none := rfl

theorem sci_zero (p : Nat) : (sci p 0).value p = 0 := by simp [sci, Sci.value]

theorem asVector_map (f : ℚ → ℚ) (hf : f 0 = 0) (x : List ℚ) (k : Int) : asVector (x.map f) k = f (asVector x k) := by
  unfold asVector
  split
  · rw [List.getElem?_map]
    cases x[k.toNat]? <;> simp [hf]
  · exact hf.symm

/-- One term of a product of rounded numbers. -/
theorem term_near {a x a' x' : ℚ} (ha : |a' - a| ≤ |a| / (2 * 10 ^ 5)) (hx : |x' - x| ≤ |x| / (2 * 10 ^ 16)) :
    |a' * x' - a * x| ≤ 6 / 10 ^ 6 * |a * x| := by
  have e : a' * x' - a * x = (a' - a) * x + a * (x' - x) + (a' - a) * (x' - x) := by ring
  have h1 := abs_add_le ((a' - a) * x + a * (x' - x)) ((a' - a) * (x' - x))
  have h2 := abs_add_le ((a' - a) * x) (a * (x' - x))
  rw [abs_mul] at h2 h1 ⊢
  rw [abs_mul] at h2
  have p := abs_nonneg a
  have q := abs_nonneg x
  have k1 : |a' - a| * |x| ≤ |a| / (2 * 10 ^ 5) * |x| := mul_le_mul_of_nonneg_right ha q
  have k2 : |a| * |x' - x| ≤ |a| * (|x| / (2 * 10 ^ 16)) := mul_le_mul_of_nonneg_left hx p
  have k3 : |a' - a| * |x' - x| ≤ |a| / (2 * 10 ^ 5) * (|x| / (2 * 10 ^ 16)) :=
    mul_le_mul ha hx (abs_nonneg _) (by positivity)
  have pq := mul_nonneg p q
  rw [← e] at h1
  have k4 : |a| / (2 * 10 ^ 5) * |x| + |a| * (|x| / (2 * 10 ^ 16)) + |a| / (2 * 10 ^ 5) * (|x| / (2 * 10 ^ 16)) =
      (1 / (2 * 10 ^ 5) + 1 / (2 * 10 ^ 16) + 1 / (2 * 10 ^ 5) * (1 / (2 * 10 ^ 16))) * (|a| * |x|) := by ring
  have k5 : ((1 : ℚ) / (2 * 10 ^ 5) + 1 / (2 * 10 ^ 16) + 1 / (2 * 10 ^ 5) * (1 / (2 * 10 ^ 16))) * (|a| * |x|) ≤
      6 / 10 ^ 6 * (|a| * |x|) := mul_le_mul_of_nonneg_right (by norm_num) pq
  linarith

theorem sums_near {α : Type*} (l : List α) (f g h : α → ℚ) (c : ℚ) (H : ∀ e ∈ l, |f e - g e| ≤ c * h e) :
    |(l.map f).sum - (l.map g).sum| ≤ c * (l.map h).sum := by
  induction l with
  | nil => simp
  | cons a l ih =>
    simp only [List.map_cons, List.sum_cons]
    have h1 := H a (by simp)
    have h2 := ih fun e he => H e (List.mem_cons_of_mem _ he)
    have h3 := abs_add_le (f a - g a) ((l.map f).sum - (l.map g).sum)
    rw [show f a + (l.map f).sum - (g a + (l.map g).sum) = f a - g a + ((l.map f).sum - (l.map g).sum) by ring]
    linarith

theorem rows_nonneg {K : Type} [Field K] [LinearOrder K] {m : CSR K} {rows cols : Nat} (h : WellFormed m rows cols) (r : Nat) :
    ∀ e ∈ csrRow m r, 0 ≤ e.1 ∧ e.1 < cols := by
  intro e he
  apply h.cols_range
  unfold csrRow at he
  have := List.mem_of_mem_drop (List.mem_of_mem_take he)
  exact (List.of_mem_zip (show (e.1, e.2) ∈ m.cj.zip m.ca from this)).1

/-- **C157**: on one rank, when asked for, the operator that the run applies is written; the text is that of a matrix
with the same rows, columns and non-zero places.  Multiplying it by the vector a snapshot denotes gives in every row the
rate of the state up to six millionths of the sum of the magnitudes of the terms.  `_partial`: not exactly, see
`C157_violated`. -/
theorem C157_product_partial (blocks : List (Placement ℚ)) (rows cols : Nat) (h : InBounds blocks rows cols) (junkJ : Int)
    (junkA : ℚ) : ∃ A file B, buildGlobal junkJ junkA blocks rows cols 1 true = some (A, some file) ∧
      readCsr file = some (rows, cols, B) ∧
      (∀ r < rows, (csrRow B r).map Prod.fst = (csrRow A r).map Prod.fst) ∧
      ∀ (t : ℚ) (x : List ℚ), ∃ x', readState (morFile t x) = some x' ∧
        ∀ r < rows, |csrMul B (asVector x') r - csrMul A (asVector x) r| ≤ 6 / 10 ^ 6 * rowSize A (asVector x) r := by
  obtain ⟨m, hm, hw, -⟩ := C04_merge_is_sum blocks rows cols h junkJ junkA
  obtain ⟨R, hR⟩ : ∃ R, R = (List.range rows).map fun r => (storedRow m r).filter fun e => decide (1 / 10 ^ 20 < |e.2|) :=
    ⟨_, rfl⟩
  have hlen : R.length = rows := by simp [hR]
  have hA : threshold m rows = ofRows R := by rw [hR]; rfl
  have hnn : ∀ r ∈ R, ∀ e ∈ r, 0 ≤ e.1 := by
    intro r hr e he
    rw [hR] at hr
    simp only [List.mem_map, List.mem_range] at hr
    obtain ⟨k, -, rfl⟩ := hr
    exact (rows_nonneg hw k e (List.mem_of_mem_filter he)).1
  have hrd := read_ofRows R cols hnn
  rw [hlen] at hrd
  have hB : ∀ r < rows, csrRow (ofRows (R.map fun r => r.map fun e => (e.1, (sci 5 e.2).value 5))) r =
      (csrRow (ofRows R) r).map fun e => (e.1, (sci 5 e.2).value 5) := by
    intro r hr
    rw [csrRow_ofRows _ _ (by simpa [hlen] using hr), csrRow_ofRows _ _ (by rw [hlen]; exact hr)]
    simp
  refine ⟨ofRows R, csr2 rows cols (ofRows R), _, ?_, hrd, ?_, ?_⟩
  · simp [buildGlobal, hm, hA]
  · intro r hr
    rw [hB r hr, List.map_map]
    rfl
  · intro t x
    refine ⟨_, readState_mor t x, fun r hr => ?_⟩
    unfold csrMul rowSize
    rw [hB r hr, List.map_map]
    refine sums_near _ _ _ _ _ fun e _ => ?_
    simp only [Function.comp_def]
    rw [asVector_map (fun v => (sci 16 v).value 16) (sci_zero 16)]
    exact term_near (sci_near 5 _) (sci_near 16 _)

/-- What the threshold changes in a product. -/
theorem threshold_near {K : Type} [Field K] [LinearOrder K] [IsStrictOrderedRing K] (m : CSR K) (rows : Nat) (x : Int → K) (r : Nat) (hr : r < rows) :
    |csrMul (threshold m rows) x r - csrMul m x r| ≤ 1 / 10 ^ 20 * touched m x r := by
  unfold csrMul touched
  rw [threshold_row m rows r hr]
  induction csrRow m r with
  | nil => simp
  | cons e l ih =>
    by_cases he : 1 / 10 ^ 20 < |e.2|
    · rw [List.filter_cons_of_pos (by simpa using he)]
      simp only [List.map_cons, List.sum_cons]
      rw [show e.2 * x e.1 + (List.map (fun e => e.2 * x e.1) (l.filter fun e => decide (1 / 10 ^ 20 < |e.2|))).sum -
        (e.2 * x e.1 + (l.map fun e => e.2 * x e.1).sum) = (List.map (fun e => e.2 * x e.1)
          (l.filter fun e => decide (1 / 10 ^ 20 < |e.2|))).sum - (l.map fun e => e.2 * x e.1).sum by ring]
      have := abs_nonneg (x e.1)
      linarith
    · rw [List.filter_cons_of_neg (by simpa using he)]
      simp only [List.map_cons, List.sum_cons]
      have h1 : |e.2 * x e.1| ≤ 1 / 10 ^ 20 * |x e.1| := by
        rw [abs_mul]
        exact mul_le_mul_of_nonneg_right (not_lt.1 he) (abs_nonneg _)
      have h2 := abs_sub ((List.map (fun e => e.2 * x e.1) (l.filter fun e => decide (1 / 10 ^ 20 < |e.2|))).sum -
        (l.map fun e => e.2 * x e.1).sum) (e.2 * x e.1)
      rw [show (List.map (fun e => e.2 * x e.1) (l.filter fun e => decide (1 / 10 ^ 20 < |e.2|))).sum -
        (e.2 * x e.1 + (l.map fun e => e.2 * x e.1).sum) = (List.map (fun e => e.2 * x e.1)
          (l.filter fun e => decide (1 / 10 ^ 20 < |e.2|))).sum - (l.map fun e => e.2 * x e.1).sum - e.2 * x e.1 by ring]
      linarith

theorem sum_abs_vector (x : List ℚ) : ((List.range x.length).map fun (c : Nat) => |asVector x c|).sum = (x.map abs).sum := by
  congr 1
  apply List.ext_getElem
  · simp
  · intro i h1 h2
    simp only [List.length_map, List.length_range] at h1
    simp [asVector, List.getElem?_eq_getElem h1]

/-- A row without repetitions touches every value at most once. -/
theorem touched_le {m : CSR ℚ} {rows cols : Nat} (h : WellFormed m rows cols) (x : List ℚ) (hx : x.length = cols) (r : Nat)
    (hr : r < rows) : touched m (asVector x) r ≤ (x.map abs).sum := by
  have h1 : touched m (asVector x) r = (((csrRow m r).map Prod.fst).map fun c => |asVector x c|).sum := by
    unfold touched; rw [List.map_map]; rfl
  have hn := h.no_dup r hr
  have e1 : (((csrRow m r).map Prod.fst).map fun c => |asVector x c|).sum =
      ∑ c ∈ ((csrRow m r).map Prod.fst).toFinset, |asVector x c| := (List.sum_toFinset _ hn).symm
  have e2 : (x.map abs).sum = ∑ c ∈ ((List.range cols).map Int.ofNat).toFinset, |asVector x c| := by
    rw [List.sum_toFinset _ (List.nodup_range.map Int.ofNat_injective), ← sum_abs_vector, hx, List.map_map]
    rfl
  rw [h1, e1, e2]
  apply Finset.sum_le_sum_of_subset_of_nonneg
  · intro c hc
    simp only [List.mem_toFinset, List.mem_map] at hc ⊢
    obtain ⟨e, he, rfl⟩ := hc
    have := rows_nonneg h r e he
    exact ⟨e.1.toNat, by simp; omega, by simp; omega⟩
  · intro c _ _
    exact abs_nonneg _

open Dgtd.Op Dgtd.Op.Spec in
/-- **C157** for the fields: the operator of a problem, written and read outside the program, applied to a snapshot of
its fields in the documented layout, gives their rates up to six millionths of the magnitudes of the terms and what the
threshold drops.  `_partial` as above. -/
theorem C157_rates_partial {n : Nat} (P : Prob (Fin n) ℚ) (store : GBlock (Fin n) ℚ → List (List (Int × ℚ)))
    (hst : ∀ b ∈ globalBlocks P, Represents b.mat (store b)) (junkJ : Int) (junkA : ℚ) :
    ∃ A file B, buildGlobal junkJ junkA ((globalBlocks P).map fun b => place n b (store b)) (6 * n) (6 * n) 1 true =
        some (A, some file) ∧ readCsr file = some (6 * n, 6 * n, B) ∧
      ∀ (t : ℚ) (x : List ℚ) (u : State (Fin n) ℚ), x.length = 6 * n → Holds n (asVector x) u →
        ∃ x', readState (morFile t x) = some x' ∧ ∀ f (d : Dir) (i : Fin n),
          |csrMul B (asVector x') ((3 * f.idx + d.val) * n + i.val) - globalMult P u f d i| ≤
            6 / 10 ^ 6 * rowSize A (asVector x) ((3 * f.idx + d.val) * n + i.val) + 1 / 10 ^ 20 * (x.map abs).sum := by
  have hb := placed_inBounds (globalBlocks P) store hst
  obtain ⟨A, file, B, hA, hB, -, hx⟩ := C157_product_partial _ _ _ hb junkJ junkA
  obtain ⟨m, hm, hact⟩ := csr_acts (globalBlocks P) store hst junkJ junkA
  obtain ⟨m', hm', hw, -⟩ := C04_merge_is_sum _ _ _ hb junkJ junkA
  have : m' = m := Option.some.inj (hm'.symm.trans hm)
  subst this
  refine ⟨A, file, B, hA, hB, ?_⟩
  intro t x u hl hu
  obtain ⟨x', hx', hr⟩ := hx t x
  refine ⟨x', hx', fun f d i => ?_⟩
  have hrow : (3 * f.idx + d.val) * n + i.val < 6 * n := by
    have : 3 * f.idx + d.val ≤ 5 := by
      have := d.isLt
      cases f <;> simp only [FieldT.idx] <;> omega
    have := i.isLt
    nlinarith
  have h1 := hr _ hrow
  have hAm : A = threshold m' (6 * n) := by
    unfold buildGlobal at hA
    rw [hm'] at hA
    simp only [Option.bind_eq_bind, Option.bind_some, Option.pure_def, Option.some.injEq, Prod.mk.injEq] at hA
    exact hA.1.symm
  have h2 := threshold_near m' (6 * n) (asVector x) _ hrow
  rw [← hAm, hact (asVector x) u hu f d i] at h2
  have h3 := touched_le hw x hl _ hrow
  have h4 := abs_add_le (csrMul B (asVector x') ((3 * f.idx + d.val) * n + i.val) -
    csrMul A (asVector x) ((3 * f.idx + d.val) * n + i.val)) (csrMul A (asVector x) ((3 * f.idx + d.val) * n + i.val) -
      applyBlocks (globalBlocks P) u f d i)
  rw [sub_add_sub_cancel] at h4
  unfold globalMult
  linarith

/-- On several ranks nothing is written. -/
theorem C157_ranks (blocks : List (Placement ℚ)) (rows cols ranks : Nat) (hr : 1 < ranks) (junkJ : Int) (junkA : ℚ)
    (wanted : Bool) (A : CSR ℚ) (o : Option (List Line))
    (h : buildGlobal junkJ junkA blocks rows cols ranks wanted = some (A, o)) : o = none := by
  unfold buildGlobal at h
  cases hm : merge junkJ junkA blocks rows cols with
  | none => rw [hm] at h; cases h
  | some m =>
    rw [hm] at h
    simp only [Option.bind_eq_bind, Option.bind_some, Option.pure_def, Option.some.injEq, Prod.mk.injEq] at h
    rw [← h.2, if_neg (fun hc => hc.2 hr)]

section witness
open Dgtd.Op Dgtd.Op.Spec Dgtd.Spectral

/-- A tiny element with absorbing faces. -/
def tiny : Prob (Fin 1) ℚ := { one 1 with Minv := fun _ => Matrix.diagonal fun _ => 1234567 }

/-- Its blocks have one entry. -/
def tinyStore (b : GBlock (Fin 1) ℚ) : List (List (Int × ℚ)) := [[(0, b.mat 0 0)]]

lemma tinyStore_represents (b : GBlock (Fin 1) ℚ) : Represents b.mat (tinyStore b) := by
  refine ⟨rfl, ?_, ?_⟩
  · intro r hr e he
    simp only [tinyStore, List.mem_singleton] at hr
    subst hr
    simp only [List.mem_singleton] at he
    subst he
    simp
  · intro i j
    fin_cases i; fin_cases j
    simp [tinyStore]

/-- The applied and the exported row of `E_y`. -/
def tinyRows : Option (ℚ × ℚ) := do
  let r ← buildGlobal 0 0 ((globalBlocks tiny).map fun b => place 1 b (tinyStore b)) 6 6 1 true
  let file ← r.2
  let B ← readCsr file
  let x ← readState (morFile 0 [0, 1, 0, 0, 0, 0])
  pure (csrMul r.1 (asVector [0, 1, 0, 0, 0, 0]) 1, csrMul B.2.2 (asVector x) 1)

/-- **C157** is violated: the values are written with six digits, so the exported operator is another one.  A field that
decays at the rate 1234567 decays outside the program at the rate 1234570. -/
theorem C157_violated : tinyRows = some (-1234567, -1234570) := by decide +kernel

/-- **C157** is violated: no snapshot can be read as documented, with the number of values on the first line, which is
that of the instant. -/
theorem C157_snapshot_violated (t : ℚ) (x : List ℚ) : readStateAsDocumented (morFile t x) = none ∧
    (morFile t x)[0]? = some (.num (sci 16 t)) ∧ (morFile t x)[1]? = some (.count x.length) := ⟨rfl, rfl, rfl⟩

/-- The hypotheses hold for the tiny element and the state of the witness. -/
example : (∀ b ∈ globalBlocks tiny, Represents b.mat (tinyStore b)) ∧
    Holds 1 (asVector [0, 1, 0, 0, 0, 0]) oneU ∧ globalMult tiny oneU .E 1 0 = -1234567 :=
  ⟨fun b _ => tinyStore_represents b, by
    intro d i
    fin_cases i; fin_cases d <;> decide +kernel, by decide +kernel⟩

end witness

end Dgtd.Export
