/-
The merged sparse matrix acts as the list of blocks.
-/
import Verif.Lemmas.OpForm
import Verif.Props.Csr

set_option linter.unusedSectionVars false
set_option linter.unusedSimpArgs false

namespace Dgtd.Op

open Spec Csr Csr.Spec

variable {K : Type} [Field K] [LinearOrder K]

lemma dot_acc (l : List (Int × K)) (e : Int × K) (x : Int → K) :
    ((acc l e).map fun e => e.2 * x e.1).sum = (l.map fun e => e.2 * x e.1).sum + e.2 * x e.1 := by
  induction l with
  | nil => simp [acc]
  | cons a l ih =>
    obtain ⟨c, v⟩ := a
    unfold acc
    split_ifs with h
    · simp only [List.map_cons, List.sum_cons]; rw [← h]; ring
    · simp only [List.map_cons, List.sum_cons, ih]; ring

lemma dot_foldl_acc (es l : List (Int × K)) (x : Int → K) :
    ((es.foldl acc l).map fun e => e.2 * x e.1).sum =
      (l.map fun e => e.2 * x e.1).sum + (es.map fun e => e.2 * x e.1).sum := by
  induction es generalizing l with
  | nil => simp
  | cons e es ih => rw [List.foldl_cons, ih, dot_acc]; simp only [List.map_cons, List.sum_cons]; ring

lemma csrMul_rowEntries (blocks : List (Placement K)) (rows r : Nat) (hr : r < rows) (x : Int → K) :
    csrMul { ci := (List.range (rows + 1)).map (offs blocks)
             cj := (List.range rows).flatMap fun r => keys (merged blocks r)
             ca := (List.range rows).flatMap fun r => vals (merged blocks r) } x r =
      (blocks.map fun bp => ((entries bp r).map fun e => e.2 * x e.1).sum).sum := by
  unfold csrMul
  rw [csrRow_merge blocks rows r hr]
  unfold merged
  rw [dot_foldl_acc]
  unfold rowEntries
  rw [List.map_flatMap]
  simp only [List.map_nil, List.sum_nil, zero_add]
  induction blocks with
  | nil => simp
  | cons b bs ih => simp only [List.flatMap_cons, List.sum_append, List.map_cons, List.sum_cons, ih]

lemma idx_eq {n a b i j : Nat} (hi : i < n) (hj : j < n) (h : a * n + i = b * n + j) : a = b := by
  have h1 : (a * n + i) / n = a := by
    rw [Nat.mul_comm, Nat.mul_add_div (by omega)]; simp [Nat.div_eq_of_lt hi]
  have h2 : (b * n + j) / n = b := by
    rw [Nat.mul_comm, Nat.mul_add_div (by omega)]; simp [Nat.div_eq_of_lt hj]
  rw [← h1, ← h2, h]

lemma comp_eq {f f' : FieldT} {d d' : Dir} (h : 3 * f.idx + d.val = 3 * f'.idx + d'.val) :
    f = f' ∧ d = d' := by
  have := d.isLt; have := d'.isLt
  cases f <;> cases f' <;> simp only [FieldT.idx] at h <;>
    first
    | exact ⟨rfl, Fin.ext (by omega)⟩
    | (exfalso; omega)

lemma holds_at {n : Nat} {x : Int → K} {u : State (Fin n) K} (h : Holds n x u) (f : FieldT) (d : Dir) (j : Fin n) :
    x (((3 * f.idx + d.val) * n + j.val : Nat) : Int) = u f d j := by
  cases f
  · simpa [FieldT.idx] using (h d j).1
  · simpa [FieldT.idx] using (h d j).2

lemma list_range_sum (n : Nat) (g : Nat → K) : ((List.range n).map g).sum = ∑ j : Fin n, g j.val := by
  rw [← Finset.sum_range]
  induction n with
  | zero => simp
  | succ n ih => rw [List.range_succ, List.map_append, List.sum_append, ih, Finset.sum_range_succ]; simp

lemma row_dot {n m : Nat} (A : Matrix (Fin n) (Fin m) K) (rows : List (List (Int × K))) (hA : Represents A rows)
    (i : Fin n) (x : Int → K) (y : Fin m → K) (hy : ∀ j : Fin m, x (j.val : Int) = y j) :
    (((rows[i.val]?).getD []).map fun e => e.2 * x e.1).sum = A.mulVec y i := by
  have hi : i.val < rows.length := by rw [hA.height]; exact i.isLt
  rw [csrMul_eq_matMul _ m ?_ x]
  · rw [list_range_sum, Matrix.mulVec, dotProduct]
    apply Finset.sum_congr rfl
    intro j _
    rw [hy j]
    congr 1
    exact hA.entry i j
  · rw [List.getElem?_eq_getElem hi]
    intro e he
    exact hA.cols _ (List.getElem_mem hi) e he

/-- The placed blocks of an operator. -/
def placed {n : Nat} (bs : List (GBlock (Fin n) K)) (store : GBlock (Fin n) K → List (List (Int × K))) :
    List (Placement K) := bs.map fun b => place n b (store b)

lemma placed_inBounds {n : Nat} (bs : List (GBlock (Fin n) K))
    (store : GBlock (Fin n) K → List (List (Int × K))) (hst : ∀ b ∈ bs, Represents b.mat (store b)) :
    InBounds (placed bs store) (6 * n) (6 * n) := by
  intro bp hbp i hi _ _ e he
  obtain ⟨b, hb, rfl⟩ := List.mem_map.mp hbp
  have hc := (hst b hb).cols _ (List.getElem_mem hi) e he
  simp only [place] at hc ⊢
  have hbd : (3 * b.colF.idx + b.colD.val) * n + n ≤ 6 * n := by
    have : 3 * b.colF.idx + b.colD.val ≤ 5 := by
      have := b.colD.isLt
      cases b.colF <;> simp only [FieldT.idx] <;> omega
    nlinarith
  constructor
  · omega
  · zify at hbd; push_cast; omega

lemma entries_place {n : Nat} (b : GBlock (Fin n) K) (rows : List (List (Int × K)))
    (hA : Represents b.mat rows) (x : Int → K) (u : State (Fin n) K) (hx : Holds n x u)
    (f : FieldT) (d : Dir) (i : Fin n) :
    ((entries (place n b rows) ((3 * f.idx + d.val) * n + i.val)).map fun e => e.2 * x e.1).sum =
      if b.rowF = f ∧ b.rowD = d then (b.sign • b.mat.mulVec (u b.colF b.colD)) i else 0 := by
  unfold entries rowOf
  simp only [place, hA.height]
  split_ifs with h1 h2 h2
  · obtain ⟨rfl, rfl⟩ := h2
    exfalso
    rcases h1 with h1 | h1
    · push_cast at h1; have := i.isLt; omega
    · have := i.isLt; push_cast at h1; omega
  · simp
  · obtain ⟨rfl, rfl⟩ := h2
    have e0 : ((((3 * b.rowF.idx + b.rowD.val) * n + i.val : Nat) : Int) -
        (((3 * b.rowF.idx + b.rowD.val) * n : Nat) : Int)).toNat = i.val := by push_cast; omega
    rw [e0, List.map_map]
    have := row_dot b.mat rows hA i
      (fun k => x (k + (((3 * b.colF.idx + b.colD.val) * n : Nat) : Int))) (u b.colF b.colD) (by
        intro j
        rw [← holds_at hx b.colF b.colD j]
        congr 1; push_cast; ring)
    rw [Pi.smul_apply, smul_eq_mul, ← this, ← List.sum_map_mul_left]
    congr 1
    apply List.map_congr_left
    intro e _
    simp only [Function.comp]; ring
  · exfalso
    apply h2
    push Not at h1
    have hlt : ((((3 * f.idx + d.val) * n + i.val : Nat) : Int) -
        (((3 * b.rowF.idx + b.rowD.val) * n : Nat) : Int)).toNat < n := by omega
    obtain ⟨k, hk⟩ := Int.eq_ofNat_of_zero_le h1.1
    have hkn : k < n := by omega
    have : (3 * f.idx + d.val) * n + i.val = (3 * b.rowF.idx + b.rowD.val) * n + k := by
      have h3 := hk
      push_cast at h3 ⊢
      zify
      linarith
    have := comp_eq (idx_eq i.isLt hkn this)
    exact ⟨this.1.symm, this.2.symm⟩

lemma applyBlocks_eq {n m : Nat} (bs : List (RBlock (Fin n) (Fin m) K)) (u : State (Fin m) K) (f : FieldT) (d : Dir)
    (i : Fin n) :
    applyBlocks bs u f d i = (bs.map fun b =>
      if b.rowF = f ∧ b.rowD = d then (b.sign • b.mat.mulVec (u b.colF b.colD)) i else 0).sum := by
  unfold applyBlocks
  induction bs with
  | nil => rfl
  | cons b bs ih =>
    rw [List.filter_cons, List.map_cons, List.sum_cons, ← ih]
    by_cases h : b.rowF = f ∧ b.rowD = d
    · rw [if_pos (by simpa using h), if_pos h, List.map_cons, List.sum_cons]; rfl
    · rw [if_neg (by simpa using h), if_neg h, zero_add]

/-- The product with the merged matrix is the block operator. -/
theorem csr_acts {n : Nat} (bs : List (GBlock (Fin n) K))
    (store : GBlock (Fin n) K → List (List (Int × K))) (hst : ∀ b ∈ bs, Represents b.mat (store b))
    (junkJ : Int) (junkA : K) :
    ∃ m, merge junkJ junkA (placed bs store) (6 * n) (6 * n) = some m ∧
      ∀ (x : Int → K) (u : State (Fin n) K), Holds n x u → ∀ f d (i : Fin n),
        csrMul m x ((3 * f.idx + d.val) * n + i.val) = applyBlocks bs u f d i := by
  have hb := cols_of_inBounds (placed_inBounds bs store hst)
  refine ⟨_, merge_eq _ _ _ hb junkJ junkA, ?_⟩
  intro x u hx f d i
  have hr : (3 * f.idx + d.val) * n + i.val < 6 * n := by
    have : 3 * f.idx + d.val ≤ 5 := by
      have := d.isLt
      cases f <;> simp only [FieldT.idx] <;> omega
    have := i.isLt
    nlinarith
  rw [csrMul_rowEntries _ _ _ hr, applyBlocks_eq]
  unfold placed
  rw [List.map_map]
  congr 1
  apply List.map_congr_left
  intro b hbm
  exact entries_place b (store b) (hst b hbm) x u hx f d i

end Dgtd.Op
