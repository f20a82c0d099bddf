/-
The ranks drop the same entries of the operator (C194).
-/
import Verif.Props.DropRun
import Verif.Props.Par
import Verif.Props.ParSource

set_option linter.unusedSectionVars false

namespace Dgtd.Drop

open Dgtd.Op Dgtd.Op.Spec Dgtd.Csr Dgtd.Csr.Spec Dgtd.Export Par Par.Spec TimeInt

variable {K : Type} [Field K] [LinearOrder K] [IsStrictOrderedRing K]

/-- An entry after the small ones are dropped. -/
def cut (a : K) : K := if 1 / 10 ^ 20 < |a| then a else 0

lemma cut_zero : cut (0 : K) = 0 := by unfold cut; simp

lemma sum_filter_cut (l : List (Int × K)) (x : Int → K) :
    ((l.filter fun e => decide (1 / 10 ^ 20 < |e.2|)).map fun e => e.2 * x e.1).sum = (l.map fun e => cut e.2 * x e.1).sum := by
  induction l with
  | nil => rfl
  | cons a l ih =>
    by_cases h : 1 / 10 ^ 20 < |a.2|
    · rw [List.filter_cons_of_pos (by simpa using h), List.map_cons, List.sum_cons, ih, List.map_cons, List.sum_cons, cut, if_pos h]
    · rw [List.filter_cons_of_neg (by simpa using h), ih, List.map_cons, List.sum_cons, cut, if_neg h, zero_mul, zero_add]

/-- A sum over the columns of an operator on fields. -/
lemma sum_columns {w : Nat} (h : Nat → K) : ∑ c ∈ Finset.range (6 * w), h c =
    ∑ d : Dir, ∑ j : Fin w, (h (d.val * w + j.val) + h ((3 + d.val) * w + j.val)) := by
  have e : 6 * w = w + w + w + w + w + w := by ring
  rw [e, Finset.sum_range_add, Finset.sum_range_add, Finset.sum_range_add, Finset.sum_range_add, Finset.sum_range_add,
    Fin.sum_univ_three]
  simp only [Finset.sum_add_distrib, Finset.sum_range]
  simp only [Fin.val_zero, Fin.val_one, Fin.val_two, zero_mul, zero_add, one_mul, add_zero, show 2 * w = w + w by ring,
    show 3 * w = w + w + w by ring, show (3 + 1) * w = w + w + w + w by ring, show (3 + 2) * w = w + w + w + w + w by ring]
  ring

/-- The state that is one in one place. -/
def spike {ι : Type} [DecidableEq ι] (g : FieldT) (a : Dir) (j : ι) : State ι K :=
  fun f d i => if f = g ∧ d = a ∧ i = j then 1 else 0

/-- A row of the operator without its small entries, from what the row does to the fields. -/
lemma threshold_form {w rows r : Nat} {m : CSR K} (hw : WellFormed m rows (6 * w)) (hr : r < rows) {φ : State (Fin w) K → K}
    (hφ : ∀ (x : Int → K) (u : State (Fin w) K), Holds w x u → csrMul m x r = φ u) {x : Int → K} {u : State (Fin w) K}
    (hx : Holds w x u) : csrMul (threshold m rows) x r =
      ∑ d : Dir, ∑ j : Fin w, (cut (φ (spike .E d j)) * u .E d j + cut (φ (spike .H d j)) * u .H d j) := by
  have hn := hw.no_dup r hr
  obtain ⟨ent, hent⟩ : ∃ ent : Int → K, ent = fun c => csrMul m (fun k => if k = c then 1 else 0) r := ⟨_, rfl⟩
  have h1 : csrMul (threshold m rows) x r = (((csrRow m r).map Prod.fst).map fun c => cut (ent c) * x c).sum := by
    unfold csrMul
    rw [threshold_row _ _ _ hr, sum_filter_cut, List.map_map]
    congr 1
    apply List.map_congr_left
    intro e he
    have := entry_eq hn he
    simp only [Function.comp]
    rw [hent]
    unfold csrMul
    simp only
    rw [this]
  have h2 : (((csrRow m r).map Prod.fst).map fun c => cut (ent c) * x c).sum =
      ∑ c ∈ (Finset.range (6 * w)).map ⟨Int.ofNat, Int.ofNat_injective⟩, cut (ent c) * x c := by
    rw [← List.sum_toFinset _ hn]
    apply Finset.sum_subset
    · intro c hc
      simp only [List.mem_toFinset, List.mem_map, Finset.mem_map, Finset.mem_range, Function.Embedding.coeFn_mk] at hc ⊢
      obtain ⟨e, he, rfl⟩ := hc
      have := rows_nonneg hw r e he
      exact ⟨e.1.toNat, by omega, by simp; omega⟩
    · intro c _ hc
      have : ent c = 0 := by
        rw [hent]
        unfold csrMul
        apply List.sum_eq_zero
        intro y hy
        obtain ⟨b, hb, rfl⟩ := List.mem_map.1 hy
        have : b.1 ≠ c := fun h => hc (List.mem_toFinset.2 (h ▸ List.mem_map_of_mem hb))
        simp [this]
      rw [this, cut_zero, zero_mul]
  have h3 : ∀ (g : FieldT) (a : Dir) (j : Fin w), ent (((3 * g.idx + a.val) * w + j.val : Nat) : Int) = φ (spike g a j) := by
    intro g a j
    rw [hent]
    have := hφ _ _ (unitAt_holds (n := w) ((3 * g.idx + a.val) * w + j.val))
    rw [unitAt_row] at this
    exact this
  rw [h1, h2, Finset.sum_map]
  show ∑ c ∈ Finset.range (6 * w), cut (ent (c : Int)) * x (c : Int) = _
  rw [sum_columns fun c => cut (ent (c : Int)) * x (c : Int)]
  refine Finset.sum_congr rfl fun d _ => Finset.sum_congr rfl fun j _ => ?_
  have hE := h3 .E d j
  have hH := h3 .H d j
  simp only [FieldT.idx, mul_zero, zero_add, mul_one] at hE hH
  rw [(hx d j).1, (hx d j).2, hE, hH]

lemma applyBlocks_zero {n w : Nat} (bs : List (RBlock (Fin n) (Fin w) K)) (f : FieldT) (d : Dir) (i : Fin n) :
    applyBlocks bs (fun _ _ _ => 0) f d i = (0 : K) := by
  rw [applyBlocks_eq]
  apply List.sum_eq_zero
  intro y hy
  obtain ⟨b, _, rfl⟩ := List.mem_map.1 hy
  split_ifs
  · have : (fun _ : Fin w => (0 : K)) = 0 := rfl
    rw [this, Matrix.mulVec_zero, smul_zero]
    rfl
  · rfl

variable {n : Nat} {R : Type} [DecidableEq R] {N G : R → Nat} {P : Prob (Fin n) K} {Q : (r : R) → RankProb (N r) (G r) K}
  {src : (r : R) → Fin (G r) → (q : R) × Fin (N q)} {num : (r : R) → Fin (N r + G r) → Fin n} {side1 side2 : Face (Fin n) K → R}

/-- C194: when no degree of freedom has two numbers on a rank, the rank drops the entries that are dropped on one
rank and no others: the products are the same. -/
theorem C194_ranks_partial (S : Split P Q src num side1 side2) (r : R) (hinj : Function.Injective (num r))
    (store : GBlock (Fin n) K → List (List (Int × K))) (hst : ∀ b ∈ globalBlocks P, Represents b.mat (store b))
    (storeR : RBlock (Fin (N r)) (Fin (N r + G r)) K → List (List (Int × K)))
    (hstR : ∀ b ∈ rankBlocks (Q r), Represents b.mat (storeR b)) (junkJ : Int) (junkA : K) :
    ∃ A B, builtOperator junkJ junkA ((globalBlocks P).map fun b => place n b (store b)) (6 * n) (6 * n) = some A ∧
      builtOperator junkJ junkA ((rankBlocks (Q r)).map fun b => placePar (N r) (G r) b (storeR b)) (6 * N r) (6 * (N r + G r)) =
        some B ∧
      ∀ (u : State (Fin n) K) (x y w : Int → K) (eNbr hNbr : Dir → Nat → K),
        Holds n x u → Holds (N r) y (scatter num u r) →
        (∀ d (j : Fin (G r)), eNbr d j = u .E d (num r (Fin.natAdd _ j)) ∧ hNbr d j = u .H d (num r (Fin.natAdd _ j))) →
        ∀ (f : FieldT) (d : Dir) (i : Fin (N r)), csrMul B (workVector (N r) (G r) y eNbr hNbr w) ((3 * f.idx + d.val) * N r + i.val) =
          csrMul A x ((3 * f.idx + d.val) * n + (num r (Fin.castAdd _ i)).val) := by
  obtain ⟨m, hm, hw, hact⟩ := built P store hst junkJ junkA
  obtain ⟨mR, hmR, hactR⟩ := csrPar_acts (rankBlocks (Q r)) storeR hstR junkJ junkA
  obtain ⟨m', hm', hwR, -⟩ := C04_merge_is_sum _ _ _ (placedPar_inBounds (rankBlocks (Q r)) storeR hstR) junkJ junkA
  have : m' = mR := Option.some.inj (hm'.symm.trans hmR)
  subst this
  refine ⟨_, threshold m' (6 * N r), hm, ?_, ?_⟩
  · unfold builtOperator
    unfold placedPar at hm'
    rw [hm']
    rfl
  intro u x y w eNbr hNbr hx hy hn f d i
  have hh := workVector_holds y _ (exchange src (scatter num u) r) hy eNbr hNbr
    (by intro d j; rw [(hn d j).1]; simp [exchange, scatter, S.ghost])
    (by intro d j; rw [(hn d j).2]; simp [exchange, scatter, S.ghost]) w
  rw [S.ghosts u r] at hh
  rw [threshold_form hw (row_lt f d _) (φ := fun u => globalMult P u f d (num r (Fin.castAdd _ i)))
      (fun x u hx => hact x u hx f d _) hx,
    threshold_form hwR (row_lt f d i) (φ := fun v => applyBlocks (rankBlocks (Q r)) v f d i)
      (fun x v hx => hactR x v hx f d i) hh]
  have agree : ∀ v : State (Fin n) K, applyBlocks (rankBlocks (Q r)) (fun f d c => v f d (num r c)) f d i =
      globalMult P v f d (num r (Fin.castAdd _ i)) := fun v => apply_agree (S.blocks r) v f d i
  have sp : ∀ g a c, applyBlocks (rankBlocks (Q r)) (spike g a c) f d i =
      globalMult P (spike g a (num r c)) f d (num r (Fin.castAdd _ i)) := by
    intro g a c
    rw [← agree]
    congr 1
    funext f' d' c'
    unfold spike
    simp only [hinj.eq_iff]
  have off : ∀ g a j, (∀ c, num r c ≠ j) → globalMult P (spike g a j) f d (num r (Fin.castAdd _ i)) = 0 := by
    intro g a j hj
    rw [← agree, ← applyBlocks_zero (rankBlocks (Q r)) f d i]
    congr 1
    funext f' d' c'
    unfold spike
    rw [if_neg]
    exact fun h => hj c' h.2.2
  refine Finset.sum_congr rfl fun a _ => ?_
  simp only [sp]
  refine (Finset.sum_map Finset.univ ⟨num r, hinj⟩ fun j =>
    cut (globalMult P (spike .E a j) f d (num r (Fin.castAdd _ i))) * u .E a j +
      cut (globalMult P (spike .H a j) f d (num r (Fin.castAdd _ i))) * u .H a j).symm.trans ?_
  apply Finset.sum_subset (Finset.subset_univ _)
  intro j _ hj
  have hj' : ∀ c, num r c ≠ j := fun c hc => hj (Finset.mem_map.2 ⟨c, Finset.mem_univ _, hc⟩)
  rw [off _ _ _ hj', off _ _ _ hj', cut_zero, zero_mul, zero_mul, add_zero]

/-! ### runs -/

/-- The products of the ranks: exchange, then each rank applies its matrix to its work vector, which held `stale` before. -/
def productPar (B : R → CSR K) (src : (r : R) → Fin (G r) → (q : R) × Fin (N q)) (stale : R → Int → K) (v : PState N K) :
    PState N K := fun r f d i =>
  csrMul (B r) (workVector (N r) (G r) (vectorOf (v r))
    (fun d j => if h : j < G r then exchange src v r .E d ⟨j, h⟩ else 0)
    (fun d j => if h : j < G r then exchange src v r .H d ⟨j, h⟩ else 0) (stale r)) ((3 * f.idx + d.val) * N r + i.val)

/-- C194: so a run of explicit steps on the ranks, each without the entries it dropped, is the run on one rank without the entries
dropped there, with any contribution of sources handed out to the ranks. -/
theorem C194_run_partial {P : Prob (Fin n) ℝ} {Q : (r : R) → RankProb (N r) (G r) ℝ} {side1 side2 : Face (Fin n) ℝ → R}
    (S : Split P Q src num side1 side2) (hinj : ∀ r, Function.Injective (num r))
    (store : GBlock (Fin n) ℝ → List (List (Int × ℝ))) (hst : ∀ b ∈ globalBlocks P, Represents b.mat (store b))
    (storeR : (r : R) → RBlock (Fin (N r)) (Fin (N r + G r)) ℝ → List (List (Int × ℝ)))
    (hstR : ∀ r, ∀ b ∈ rankBlocks (Q r), Represents b.mat (storeR r b)) (junkJ : Int) (junkA : ℝ) :
    ∃ (A : CSR ℝ) (B : R → CSR ℝ),
      builtOperator junkJ junkA ((globalBlocks P).map fun b => place n b (store b)) (6 * n) (6 * n) = some A ∧
      (∀ r, builtOperator junkJ junkA ((rankBlocks (Q r)).map fun b => placePar (N r) (G r) b (storeR r b)) (6 * N r)
        (6 * (N r + G r)) = some (B r)) ∧
      ∀ (q : Implicit.Sdirk ℝ) (T : Type) (f : ℝ → State (Fin n) ℝ) (stale : ℝ → R → Int → ℝ) (dts : List ℝ)
        (u : State (Fin n) ℝ) (t : ℝ) (s : T),
        run q .rk4 (explicitTdo fun t v => productPar B src (stale t) v + scatter num (f t)) dts (scatter num u) t s =
          (run q .rk4 (explicitTdo fun t u => product A u + f t) dts u t s).map fun y => (scatter num y.1, y.2) := by
  obtain ⟨m, hm, -, -⟩ := built P store hst junkJ junkA
  have each := fun r => C194_ranks_partial S r (hinj r) store hst (storeR r) (hstR r) junkJ junkA
  choose A B hA hB hAB using each
  refine ⟨_, B, hm, hB, ?_⟩
  intro q T f stale dts u t s
  refine run_map q (scatterL num) ?_ dts u t s
  intro t x
  show productPar B src (stale t) (scatter num x) + scatter num (f t) = scatter num (product _ x + f t)
  funext r g d i
  have e : A r = _ := Option.some.inj ((hA r).symm.trans hm)
  have := hAB r x (vectorOf x) (vectorOf (scatter num x r)) (stale t r)
    (fun d j => if h : j < G r then exchange src (scatter num x) r .E d ⟨j, h⟩ else 0)
    (fun d j => if h : j < G r then exchange src (scatter num x) r .H d ⟨j, h⟩ else 0)
    (vectorOf_holds x) (vectorOf_holds _) (fun d j => by simp [exchange, scatter, S.ghost]) g d i
  rw [e] at this
  show productPar B src (stale t) (scatter num x) r g d i + f t g d (num r (Fin.castAdd _ i)) =
    product _ x g d (num r (Fin.castAdd _ i)) + f t g d (num r (Fin.castAdd _ i))
  congr 1

/-! ### a line of two elements on two ranks -/

/-- All entries of a matrix, row by row. -/
def fullRows {a b : Nat} (A : Matrix (Fin a) (Fin b) K) : List (List (Int × K)) :=
  (List.finRange a).map fun i => (List.finRange b).map fun j => ((j.val : Int), A i j)

lemma fullRows_represents {a b : Nat} (A : Matrix (Fin a) (Fin b) K) : Represents A (fullRows A) := by
  refine ⟨by simp [fullRows], ?_, ?_⟩
  · intro r hr e he
    simp only [fullRows, List.mem_map, List.mem_finRange, true_and] at hr
    obtain ⟨i, rfl⟩ := hr
    simp only [List.mem_map, List.mem_finRange, true_and] at he
    obtain ⟨j, rfl⟩ := he
    constructor
    · positivity
    · show (j.val : Int) < b
      exact_mod_cast j.isLt
  · intro i j
    have e : ((fullRows A)[i.val]?).getD [] = (List.finRange b).map fun j => ((j.val : Int), A i j) := by
      simp [fullRows]
    rw [e, List.map_map]
    have h : ((List.finRange b).map ((fun e : Int × K => if e.1 = (j.val : Int) then e.2 else 0) ∘
        fun j => ((j.val : Int), A i j))).sum = ∑ k : Fin b, if k = j then A i k else 0 := by
      rw [Fin.sum_univ_def]
      congr 1
      apply List.map_congr_left
      intro k _
      simp [Fin.ext_iff]
    rw [h, Finset.sum_ite_eq' Finset.univ j]
    simp

/-- The hypotheses hold on both ranks. -/
example (r : Fin 2) : Split (exProb 1 .PEC .SMA) (exRank 1 .PEC .SMA) exSrc exNum exSide1 exSide2 ∧ Function.Injective (exNum r) ∧
    (∀ b ∈ globalBlocks (exProb 1 .PEC .SMA), Represents b.mat (fullRows b.mat)) ∧
    ∀ b ∈ rankBlocks (exRank 1 .PEC .SMA r), Represents b.mat (fullRows b.mat) :=
  ⟨exSplit 1 .PEC .SMA, by revert r; decide, fun _ _ => fullRows_represents _, fun _ _ => fullRows_represents _⟩

/-- Four elements of order zero over the reals, two on each rank. -/
example : Split (K := ℝ) rowCase.prob (fun r => (rowRank r).prob) rowSrc rowNum rowSide1 rowSide2 ∧
    (∀ r, Function.Injective (rowNum r)) ∧
    (∀ b ∈ globalBlocks (rowCase (K := ℝ)).prob, Represents b.mat (fullRows b.mat)) ∧
    ∀ r, ∀ b ∈ rankBlocks (rowRank (K := ℝ) r).prob, Represents b.mat (fullRows b.mat) :=
  ⟨rowSplit.prob, by decide, fun _ _ => fullRows_represents _, fun _ _ _ => fullRows_represents _⟩

end Dgtd.Drop
