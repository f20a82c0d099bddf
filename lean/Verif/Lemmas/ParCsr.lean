/-
The stored operator of a rank acts on the work vector as its blocks on the fields.
-/
import Verif.Lemmas.Par
import Verif.Lemmas.OpCsr

set_option linter.unusedSectionVars false
set_option linter.unusedSimpArgs false

namespace Dgtd.Par

open Dgtd.Op Dgtd.Op.Spec Csr Csr.Spec

variable {K : Type} [Field K] [LinearOrder K] {n g : Nat}

/-- The placed blocks of a rank. -/
def placedPar (bs : List (RBlock (Fin n) (Fin (n + g)) K)) (store : RBlock (Fin n) (Fin (n + g)) K → List (List (Int × K))) :
    List (Placement K) := bs.map fun b => placePar n g b (store b)

lemma placedPar_inBounds (bs : List (RBlock (Fin n) (Fin (n + g)) K))
    (store : RBlock (Fin n) (Fin (n + g)) K → List (List (Int × K))) (hst : ∀ b ∈ bs, Represents b.mat (store b)) :
    InBounds (placedPar bs store) (6 * n) (6 * (n + g)) := by
  intro bp hbp i hi _ _ e he
  obtain ⟨b, hb, rfl⟩ := List.mem_map.mp hbp
  have hc := (hst b hb).cols _ (List.getElem_mem hi) e he
  simp only [placePar] at hc ⊢
  have hbd : (3 * b.colF.idx + b.colD.val) * (n + g) + (n + g) ≤ 6 * (n + g) := by
    have : 3 * b.colF.idx + b.colD.val ≤ 5 := by
      have := b.colD.isLt
      cases b.colF <;> simp only [FieldT.idx] <;> omega
    nlinarith
  constructor
  · omega
  · zify at hbd; push_cast at hc ⊢; omega

lemma entries_placePar (b : RBlock (Fin n) (Fin (n + g)) K) (rows : List (List (Int × K)))
    (hA : Represents b.mat rows) (x : Int → K) (u : State (Fin (n + g)) K) (hx : Holds (n + g) x u)
    (f : FieldT) (d : Dir) (i : Fin n) :
    ((entries (placePar n g b rows) ((3 * f.idx + d.val) * n + i.val)).map fun e => e.2 * x e.1).sum =
      if b.rowF = f ∧ b.rowD = d then (b.sign • b.mat.mulVec (u b.colF b.colD)) i else 0 := by
  unfold entries rowOf
  simp only [placePar, hA.height]
  split_ifs with h1 h2 h2
  · obtain ⟨rfl, rfl⟩ := h2
    exfalso
    rcases h1 with h1 | h1
    · push_cast at h1; have := i.isLt; omega
    · have := i.isLt; push_cast at h1; omega
  · simp
  · obtain ⟨rfl, rfl⟩ := h2
    have e0 : ((((3 * b.rowF.idx + b.rowD.val) * n + i.val : Nat) : Int) -
        (((3 * b.rowF.idx + b.rowD.val) * n : Nat) : Int)).toNat = i.val := by push_cast; omega
    rw [e0, List.map_map]
    have := row_dot b.mat rows hA i
      (fun k => x (k + (((3 * b.colF.idx + b.colD.val) * (n + g) : Nat) : Int))) (u b.colF b.colD) (by
        intro j
        rw [← holds_at hx b.colF b.colD j]
        congr 1; push_cast; ring)
    rw [Pi.smul_apply, smul_eq_mul, ← this, ← List.sum_map_mul_left]
    congr 1
    apply List.map_congr_left
    intro e _
    simp only [Function.comp]; ring
  · exfalso
    apply h2
    push Not at h1
    have hlt : ((((3 * f.idx + d.val) * n + i.val : Nat) : Int) -
        (((3 * b.rowF.idx + b.rowD.val) * n : Nat) : Int)).toNat < n := by omega
    obtain ⟨k, hk⟩ := Int.eq_ofNat_of_zero_le h1.1
    have hkn : k < n := by omega
    have : (3 * f.idx + d.val) * n + i.val = (3 * b.rowF.idx + b.rowD.val) * n + k := by
      have h3 := hk
      push_cast at h3 ⊢
      zify
      linarith
    have := comp_eq (idx_eq i.isLt hkn this)
    exact ⟨this.1.symm, this.2.symm⟩

/-- The product with the merged matrix of a rank is its block operator. -/
theorem csrPar_acts (bs : List (RBlock (Fin n) (Fin (n + g)) K))
    (store : RBlock (Fin n) (Fin (n + g)) K → List (List (Int × K))) (hst : ∀ b ∈ bs, Represents b.mat (store b))
    (junkJ : Int) (junkA : K) :
    ∃ m, merge junkJ junkA (placedPar bs store) (6 * n) (6 * (n + g)) = some m ∧
      ∀ (x : Int → K) (u : State (Fin (n + g)) K), Holds (n + g) x u → ∀ f d (i : Fin n),
        csrMul m x ((3 * f.idx + d.val) * n + i.val) = applyBlocks bs u f d i := by
  have hb := cols_of_inBounds (placedPar_inBounds bs store hst)
  refine ⟨_, merge_eq _ _ _ hb junkJ junkA, ?_⟩
  intro x u hx f d i
  have hr : (3 * f.idx + d.val) * n + i.val < 6 * n := by
    have : 3 * f.idx + d.val ≤ 5 := by
      have := d.isLt
      cases f <;> simp only [FieldT.idx] <;> omega
    have := i.isLt
    nlinarith
  rw [csrMul_rowEntries _ _ _ hr, applyBlocks_eq]
  unfold placedPar
  rw [List.map_map]
  congr 1
  apply List.map_congr_left
  intro b hbm
  exact entries_placePar b (store b) (hst b hbm) x u hx f d i

lemma setVector_in (w : Int → K) (v : Nat → K) (len off i : Nat) (h : i < len) :
    setVector w v len off ((off + i : Nat) : Int) = v i := by
  unfold setVector
  rw [if_pos (by push_cast; omega)]
  congr 1
  push_cast; omega

lemma setVector_out (w : Int → K) (v : Nat → K) (len off k : Nat) (h : k < off ∨ off + len ≤ k) :
    setVector w v len off (k : Int) = w k := by
  unfold setVector
  rw [if_neg (by push_cast; omega)]

/-- The work vector holds the own fields followed by the neighbours'. -/
theorem workVector_holds (x : Int → K) (u : State (Fin n) K) (v : State (Fin g) K) (hx : Holds n x u)
    (eNbr hNbr : Dir → Nat → K) (he : ∀ d (j : Fin g), eNbr d j = v .E d j) (hh : ∀ d (j : Fin g), hNbr d j = v .H d j)
    (w : Int → K) : Holds (n + g) (workVector n g x eNbr hNbr w) (withGhosts u v) := by
  intro d i
  unfold workVector withGhosts
  simp only [dirs, List.foldl_cons, List.foldl_nil]
  have hd : d = 0 ∨ d = 1 ∨ d = 2 := by revert d; decide
  induction i using Fin.addCases with
  | left i =>
    have hi := i.isLt
    rw [Fin.addCases_left, Fin.addCases_left, ← (hx d i).1, ← (hx d i).2, Fin.val_castAdd]
    rcases hd with rfl | rfl | rfl
    all_goals
      simp only [Fin.val_zero, Fin.val_one, Fin.val_two]
      constructor
    all_goals split_ifs
    all_goals
      repeat (first | rw [setVector_in _ _ _ _ _ hi] | rw [setVector_out _ _ _ _ _ (by omega)])
  | right j =>
    have hj := j.isLt
    rw [Fin.addCases_right, Fin.addCases_right, ← he, ← hh, Fin.val_natAdd, ← Nat.add_assoc, ← Nat.add_assoc]
    rw [if_pos (by omega)]
    rcases hd with rfl | rfl | rfl
    all_goals
      simp only [Fin.val_zero, Fin.val_one, Fin.val_two]
      constructor
    all_goals
      repeat (first | rw [setVector_in _ _ _ _ _ hj] | rw [setVector_out _ _ _ _ _ (by omega)])

end Dgtd.Par
